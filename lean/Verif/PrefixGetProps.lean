import Verif.PrefixGet
import Verif.NetUtilProps

/-!
# C215: the prefix a queue reports can be read

`aosl_mpq_get_ipv6_prefix` is documented to return a pointer to the IPv6 prefix.  Its first 12 bytes
are the prefix in force (`C215_prefix_partial`, `C215_follows_partial`), but the structure it points
to has 16 bytes, of which 4 do not exist (`C215_violated_whole`), and the pointer dangles after the
prefix was reset (`C215_violated_dangling`).
-/

namespace Verif.PrefixGet
open Verif.Words (Endian)
open Verif.NetUtil

/-! ## Specification -/

/-- The prefix in force after a history: the last ordinary one that was set since the last reset. -/
noncomputable def inForce : List Op → Option Bytes → Option Bytes
  | [], p => p
  | .set none _ :: l, _ => inForce l none
  | .set (some a) mem :: l, p =>
    open Classical in
    if Special a then inForce l p else if p.isSome ∨ mem = true then inForce l (some a) else inForce l p
  | .destroy :: _, _ => none

/-- `n` leading bytes of an address -/
def first (n : Nat) (a : Bytes) : List (BitVec 8) := (List.range n).map a

def isReset : Op → Prop
  | .set none _ => True
  | .set (some _) _ => False
  | .destroy => True

/-! ## Invariant -/

structure Rel (s : St) (p : Option Bytes) : Prop where
  bad : s.bad = false
  nul : s.cur = none ↔ p = none
  dead : s.alive = false → s.cur = none
  data : ∀ b a, s.cur = some b → p = some a → ∃ x, s.blocks[b]? = some x ∧ x.live = true ∧ ∀ i, i < 12 → x.data i = a i
  rest : ∀ b x, s.blocks[b]? = some x → x.live = true → s.cur = some b

theorem set_get {l : List Block} {b : Nat} {y : Block} (h : l[b]? = some y) (x : Block) (u : Nat) :
    (l.set b x)[u]? = if u = b then some x else l[u]? := by
  have : b < l.length := by rw [List.getElem?_eq_some_iff] at h; exact h.1
  rw [List.getElem?_set]
  by_cases hu : b = u
  · subst hu; simp [this]
  · simp [hu, Ne.symm hu]

theorem rel_init : Rel init none := by
  constructor <;> simp [init]

theorem app_get (l : List Block) (z : Block) (u : Nat) :
    (l ++ [z])[u]? = if u = l.length then some z else l[u]? := by
  rw [List.getElem?_append]
  by_cases h1 : u < l.length
  · simp [h1, Nat.ne_of_lt h1]
  · by_cases h2 : u = l.length
    · simp [h2]
    · simp only [h1, h2, if_false]
      rw [List.getElem?_eq_none (by simp; omega), List.getElem?_eq_none (by omega)]

/-- One operation, seen by the specification. -/
theorem rel_step (e : Endian) {s : St} {p : Option Bytes} (h : Rel s p) (ha : s.alive = true) (op : Op) (hop : op ≠ .destroy) :
    ∃ q, Rel (step e s op) q ∧ (step e s op).alive = true ∧ (∀ l, inForce (op :: l) p = inForce l q) ∧
      ((∃ b, s.cur = some b) → ¬ isReset op → (step e s op).cur = s.cur) := by
  cases op with
  | destroy => exact absurd rfl hop
  | set a mem =>
    cases a with
    | none =>
      refine ⟨none, ?_, ?_, fun l => rfl, fun _ hr => absurd trivial hr⟩
      · simp only [step, ha, update]
        cases hc : s.cur with
        | none => simp; exact ⟨h.bad, by simp [hc], h.dead, fun b a h1 => by simp [hc] at h1, h.rest⟩
        | some b =>
          have hp : p ≠ none := fun hp => by rw [h.nul.mpr hp] at hc; simp at hc
          obtain ⟨a, ha'⟩ := Option.ne_none_iff_exists'.mp hp
          obtain ⟨x, hx, hl, _⟩ := h.data b a hc ha'
          simp only [free, hx]
          refine ⟨by simp [h.bad, hl], by simp, by simp, by simp, ?_⟩
          intro u y hu hy
          simp only [if_true] at hu
          rw [set_get hx] at hu
          by_cases e1 : u = b
          · simp [e1] at hu; rw [← hu] at hy; simp at hy
          · simp [e1] at hu
            have := h.rest u y hu hy
            rw [hc] at this; simp at this; exact absurd this.symm e1
      · simp only [step, ha, update]
        cases hc : s.cur with
        | none => simp [ha]
        | some b =>
          simp only [free, if_true]
          cases s.blocks[b]? <;> simp [ha]
    | some a =>
      by_cases hs : Special a
      · refine ⟨p, ?_, ?_, fun l => by simp [inForce, hs], ?_⟩
        all_goals simp only [step, ha, update, (special_iff e a).mpr hs, if_true]
        · exact h
        · exact fun _ _ => trivial
      · have hsp : (isV4Mapped e a || isNat64 e a) = false := by
          cases hh : (isV4Mapped e a || isNat64 e a) with
          | false => rfl
          | true => exact absurd ((special_iff e a).mp hh) hs
        cases hc : s.cur with
        | none =>
          have hp : p = none := h.nul.mp hc
          cases mem with
          | false =>
            refine ⟨none, ?_, ?_, fun l => by simp [inForce, hs, hp], by simp⟩
            · simp only [step, ha, update, hsp, hc]; simp; exact hp ▸ h
            · simp [step, ha, update, hsp, hc]
          | true =>
            refine ⟨some a, ?_, ?_, fun l => by simp [inForce, hs], by simp⟩
            · simp only [step, ha, update, hsp, hc, write, app_get, if_true]
              have hg := app_get s.blocks { data := fun _ => 0#8, live := true } s.blocks.length
              simp only [if_true] at hg
              refine ⟨by simp [h.bad], by simp, by simp [ha], ?_, ?_⟩
              · intro b a' hb ha'
                simp at hb ha'
                subst hb ha'
                refine ⟨_, by simp only [Bool.false_eq_true, if_false]; rw [set_get hg]; simp; rfl, rfl, ?_⟩
                intro i hi; simp [hi]
              · intro u y hu hy
                simp only [Bool.false_eq_true, if_false] at hu
                rw [set_get hg, app_get] at hu
                by_cases e1 : u = s.blocks.length
                · simp [e1]
                · simp [e1] at hu
                  have := h.rest u y hu hy
                  rw [hc] at this; simp at this
            · simp [step, ha, update, hsp, hc, write]
        | some b =>
          have hp : p ≠ none := fun hp => by rw [h.nul.mpr hp] at hc; simp at hc
          obtain ⟨a0, ha0⟩ := Option.ne_none_iff_exists'.mp hp
          obtain ⟨x, hx, hl, _⟩ := h.data b a0 hc ha0
          refine ⟨some a, ?_, ?_, fun l => by simp [inForce, hs, ha0], ?_⟩
          · simp only [step, ha, update, hsp, hc, write, hx, if_true]
            refine ⟨by simp [h.bad, hl], by simp [hc], by simp [ha], ?_, ?_⟩
            · intro b' a' hb ha'
              simp [hc] at hb ha'
              subst hb ha'
              refine ⟨{ x with data := fun i => if i < 12 then a i else x.data i },
                by simp only [Bool.false_eq_true, if_false]; rw [set_get hx]; simp, hl, ?_⟩
              intro i hi; simp [hi]
            · intro u y hu hy
              simp only [Bool.false_eq_true, if_false] at hu
              rw [set_get hx] at hu
              by_cases e1 : u = b
              · simp [e1, hc]
              · simp [e1] at hu
                have := h.rest u y hu hy
                simpa [hc] using this
          · simp [step, ha, update, hsp, hc, write, hx]
          · intro _ _; simp [step, ha, update, hsp, hc, write, hx]

theorem dead_run (e : Endian) : ∀ (ops : List Op) {s : St}, s.alive = false → run e s ops = s
  | [], s, _ => rfl
  | op :: ops, s, h => by
    have : step e s op = s := by cases op <;> simp [step, h]
    show run e (step e s op) ops = s
    rw [this]; exact dead_run e ops h

theorem rel_destroy (e : Endian) {s : St} {p : Option Bytes} (h : Rel s p) (ha : s.alive = true) :
    Rel (step e s .destroy) none ∧ (step e s .destroy).alive = false := by
  simp only [step, ha]
  cases hc : s.cur with
  | none =>
    simp only [if_true]
    exact ⟨⟨h.bad, by simp, by simp, fun b a h1 => by simp at h1,
      fun b x hb hx => by have := h.rest b x hb hx; rw [hc] at this; simp at this⟩, trivial⟩
  | some b =>
    have hp : p ≠ none := fun hp => by rw [h.nul.mpr hp] at hc; simp at hc
    obtain ⟨a, ha'⟩ := Option.ne_none_iff_exists'.mp hp
    obtain ⟨x, hx, hl, _⟩ := h.data b a hc ha'
    simp only [free, hx, if_true]
    refine ⟨⟨by simp [h.bad, hl], by simp, by simp, by simp, ?_⟩, by simp⟩
    intro u y hu hy
    simp only at hu
    rw [set_get hx] at hu
    by_cases e1 : u = b
    · simp [e1] at hu; rw [← hu] at hy; simp at hy
    · simp [e1] at hu
      have := h.rest u y hu hy
      rw [hc] at this; simp at this; exact absurd this.symm e1

theorem rel_run (e : Endian) : ∀ (ops : List Op) {s : St} {p : Option Bytes}, Rel s p → s.alive = true →
    Rel (run e s ops) (inForce ops p)
  | [], s, p, h, _ => h
  | op :: ops, s, p, h, ha => by
    show Rel (run e (step e s op) ops) _
    by_cases hop : op = .destroy
    · subst hop
      obtain ⟨h1, h2⟩ := rel_destroy e h ha
      rw [dead_run e ops h2]; exact h1
    · obtain ⟨q, h1, h2, h3, _⟩ := rel_step e h ha op hop
      rw [h3]; exact rel_run e ops h1 h2

/-! ## Theorems -/

theorem get_cur {s : St} {p : Option Bytes} (h : Rel s p) : get s = s.cur := by
  unfold get
  cases ha : s.alive with
  | true => rfl
  | false => simp [h.dead ha]

/-- **C215 (partial: the first 96 bits).**  After any history the call answers NULL exactly when no
prefix is in force, and otherwise a pointer to memory whose first 12 bytes are those of the prefix in
force. -/
theorem C215_prefix_partial (e : Endian) (ops : List Op) :
    (get (run e init ops) = none ↔ inForce ops none = none) ∧
    ∀ b a, get (run e init ops) = some b → inForce ops none = some a →
      read (run e init ops) b 12 = some (first 12 a) := by
  have h := rel_run e ops rel_init rfl
  rw [get_cur h]
  refine ⟨h.nul, ?_⟩
  intro b a hb ha
  obtain ⟨x, hx, hl, hd⟩ := h.data b a hb ha
  simp only [read, hx, hl, true_and, Nat.le_refl, if_true, first, Option.some.injEq]
  apply List.map_congr_left
  intro i hi
  exact hd i (by simpa using hi)

/-- **C215 (partial).**  The pointer stays the same and shows the prefix in force while further
prefixes are set, until the prefix is reset with NULL or the queue ends. -/
theorem C215_follows_partial (e : Endian) (ops more : List Op) (b : Nat) (hb : get (run e init ops) = some b)
    (hm : ∀ op ∈ more, ¬ isReset op) :
    get (run e init (ops ++ more)) = some b ∧
    ∃ a, inForce (ops ++ more) none = some a ∧ read (run e init (ops ++ more)) b 12 = some (first 12 a) := by
  have key : ∀ (more : List Op) (s : St) (p : Option Bytes), Rel s p → s.alive = true → s.cur = some b →
      (∀ op ∈ more, ¬ isReset op) → (run e s more).cur = some b := by
    intro more
    induction more with
    | nil => intro s p _ _ hc _; exact hc
    | cons op more ih =>
      intro s p h ha hc hm
      have hop : op ≠ .destroy := fun hh => hm op (by simp) (by rw [hh]; trivial)
      obtain ⟨q, h1, h2, _, h4⟩ := rel_step e h ha op hop
      exact ih _ q h1 h2 ((h4 ⟨b, hc⟩ (hm op (by simp))).trans hc) (fun o ho => hm o (by simp [ho]))
  have h := rel_run e ops rel_init rfl
  have happ : run e init (ops ++ more) = run e (run e init ops) more := List.foldl_append ..
  have ha : (run e init ops).alive = true := by
    cases hh : (run e init ops).alive with
    | true => rfl
    | false => simp [get, hh] at hb
  have hc : (run e init (ops ++ more)).cur = some b := by
    rw [happ]; exact key more _ _ h ha (by rw [get_cur h] at hb; exact hb) hm
  have h' := rel_run e (ops ++ more) rel_init rfl
  have hg : get (run e init (ops ++ more)) = some b := by rw [get_cur h']; exact hc
  refine ⟨hg, ?_⟩
  have hp := C215_prefix_partial e (ops ++ more)
  have hne : inForce (ops ++ more) none ≠ none := fun hh => by
    rw [hp.1.mpr hh] at hg; simp at hg
  obtain ⟨a, ha'⟩ := Option.ne_none_iff_exists'.mp hne
  exact ⟨a, ha', hp.2 b a hg ha'⟩

/-- **C215 (violation).**  Whatever the history, reading the whole address (16 bytes) the pointer
points to, as its type says, is undefined behaviour: only 12 bytes were allocated. -/
theorem C215_violated_whole (e : Endian) (ops : List Op) (b : Nat) (hb : get (run e init ops) = some b) :
    (read (run e init ops) b 12).isSome = true ∧ read (run e init ops) b 16 = none := by
  have h := C215_prefix_partial e ops
  constructor
  · have hne : inForce ops none ≠ none := fun hh => by rw [h.1.mpr hh] at hb; simp at hb
    obtain ⟨a, ha⟩ := Option.ne_none_iff_exists'.mp hne
    rw [h.2 b a hb ha]; rfl
  · simp only [read]; split
    · rfl
    · simp

theorem dead_block (e : Endian) {s : St} {p : Option Bytes} (h : Rel s p) (ha : s.alive = true) {b : Nat}
    {x : Block} (hx : s.blocks[b]? = some x) (hl : x.live = false) :
    ∀ ops, ∃ y, (run e s ops).blocks[b]? = some y ∧ y.live = false := by
  intro ops
  induction ops generalizing s p x with
  | nil => exact ⟨x, hx, hl⟩
  | cons op ops ih =>
    have hstep : ∃ y, (step e s op).blocks[b]? = some y ∧ y.live = false := by
      have hcb : s.cur ≠ some b := by
        intro hc
        have hp : p ≠ none := fun hp => by rw [h.nul.mpr hp] at hc; simp at hc
        obtain ⟨a, ha'⟩ := Option.ne_none_iff_exists'.mp hp
        obtain ⟨y, hy, hyl, _⟩ := h.data b a hc ha'
        rw [hx] at hy; simp at hy; rw [← hy, hl] at hyl; simp at hyl
      have hbl : b < s.blocks.length := by rw [List.getElem?_eq_some_iff] at hx; exact hx.1
      cases op with
      | destroy =>
        simp only [step, ha, if_true]
        cases hc : s.cur with
        | none => exact ⟨x, hx, hl⟩
        | some c =>
          have : b ≠ c := fun hh => hcb (by rw [hc, hh])
          simp only [free]; split
          · exact ⟨x, hx, hl⟩
          · rename_i z hz; exact ⟨x, by simp only; rw [set_get hz]; simp [this, hx], hl⟩
      | set a mem =>
        simp only [step, ha, if_true, update]
        cases a with
        | none =>
          cases hc : s.cur with
          | none => exact ⟨x, hx, hl⟩
          | some c =>
            have : b ≠ c := fun hh => hcb (by rw [hc, hh])
            simp only [free]; split
            · exact ⟨x, hx, hl⟩
            · rename_i z hz; exact ⟨x, by simp only; rw [set_get hz]; simp [this, hx], hl⟩
        | some a =>
          simp only
          split
          · exact ⟨x, hx, hl⟩
          · cases hc : s.cur with
            | none =>
              simp only
              split
              · have hne : b ≠ s.blocks.length := by omega
                have hg := app_get s.blocks { data := fun _ => 0#8, live := true } s.blocks.length
                simp only [if_true] at hg
                simp only [write, hg]
                exact ⟨x, by rw [set_get hg, app_get]; simp [hne, hx], hl⟩
              · exact ⟨x, hx, hl⟩
            | some c =>
              have : b ≠ c := fun hh => hcb (by rw [hc, hh])
              simp only [write]; split
              · exact ⟨x, hx, hl⟩
              · rename_i z hz; exact ⟨x, by simp only; rw [set_get hz]; simp [this, hx], hl⟩
    obtain ⟨y, hy, hyl⟩ := hstep
    by_cases hop : op = .destroy
    · subst hop
      have := (rel_destroy e h ha).2
      refine ⟨y, ?_, hyl⟩
      show (run e (step e s .destroy) ops).blocks[b]? = _
      rw [dead_run e ops this]; exact hy
    · obtain ⟨q, h1, h2, _, _⟩ := rel_step e h ha op hop
      exact ih h1 h2 hy hyl

/-- **C215 (violation).**  Once the prefix was reset with NULL or the queue has ended, a pointer
obtained before is dangling for ever, also after new prefixes were set. -/
theorem C215_violated_dangling (e : Endian) (ops more : List Op) (op : Op) (b : Nat)
    (hb : get (run e init ops) = some b) (hr : isReset op) (k : Nat) :
    read (run e init (ops ++ op :: more)) b k = none := by
  have h := rel_run e ops rel_init rfl
  have ha : (run e init ops).alive = true := by
    cases hh : (run e init ops).alive with
    | true => rfl
    | false => simp [get, hh] at hb
  have hc : (run e init ops).cur = some b := by rw [get_cur h] at hb; exact hb
  have hp : inForce ops none ≠ none := fun hp => by rw [h.nul.mpr hp] at hc; simp at hc
  obtain ⟨a, ha'⟩ := Option.ne_none_iff_exists'.mp hp
  obtain ⟨x, hx, hl, _⟩ := h.data b a hc ha'
  have hs : ∃ y, (step e (run e init ops) op).blocks[b]? = some y ∧ y.live = false := by
    cases op with
    | destroy =>
      simp only [step, ha, if_true, hc, free, hx]
      exact ⟨_, by rw [set_get hx]; simp; rfl, rfl⟩
    | set a0 mem =>
      cases a0 with
      | none =>
        simp only [step, ha, if_true, update, hc, free, hx]
        exact ⟨_, by rw [set_get hx]; simp; rfl, rfl⟩
      | some a0 => exact hr.elim
  obtain ⟨y, hy, hyl⟩ := hs
  have happ : run e init (ops ++ op :: more) = run e (step e (run e init ops) op) more := by
    simp [run, List.foldl_append]
  rw [happ]
  have hfin : ∃ z, (run e (step e (run e init ops) op) more).blocks[b]? = some z ∧ z.live = false := by
    by_cases hop : op = .destroy
    · subst hop
      have := (rel_destroy e h ha).2
      rw [dead_run e more this]; exact ⟨y, hy, hyl⟩
    · obtain ⟨q, h1, h2, _, _⟩ := rel_step e h ha op hop
      exact dead_block e h1 h2 hy hyl more
  obtain ⟨z, hz, hzl⟩ := hfin
  simp [read, hz, hzl]

/-- **C215.**  The prefix's memory is freed once and never used after: at most the block the call
returns is allocated, and none after the queue has ended. -/
theorem C215_memory (e : Endian) (ops : List Op) :
    (run e init ops).bad = false ∧
    (∀ b x, (run e init ops).blocks[b]? = some x → x.live = true → get (run e init ops) = some b) ∧
    (.destroy ∈ ops → ∀ x ∈ (run e init ops).blocks, x.live = false) := by
  have h := rel_run e ops rel_init rfl
  refine ⟨h.bad, fun b x hx hl => by rw [get_cur h]; exact h.rest b x hx hl, ?_⟩
  intro hd x hx
  obtain ⟨u, hu⟩ := List.mem_iff_getElem?.mp hx
  cases hl : x.live with
  | false => rfl
  | true =>
    have hc := h.rest u x hu hl
    have hn : ∀ (ops : List Op) (p : Option Bytes), .destroy ∈ ops → inForce ops p = none := by
      intro ops
      induction ops with
      | nil => intro p hm; simp at hm
      | cons op ops ih =>
        intro p hm
        cases op with
        | destroy => rfl
        | set a mem =>
          have hm' : .destroy ∈ ops := by simpa using hm
          cases a with
          | none => exact ih _ hm'
          | some a =>
            simp only [inForce]
            split
            · exact ih _ hm'
            · split <;> exact ih _ hm'
    rw [h.nul.mpr (hn ops none hd)] at hc
    simp at hc

/-! ## Concrete cases -/

def pfx (n : Nat) : Bytes := fun i => if i = 0 then 0x20#8 else if i = 1 then 0x01#8 else BitVec.ofNat 8 (n + i)

example : get (run .little init [.set (some (pfx 5)) true, .set (some (pfx 7)) false]) = some 0 ∧
    read (run .little init [.set (some (pfx 5)) true, .set (some (pfx 7)) false]) 0 4 = some [0x20#8, 0x01#8, 9#8, 10#8] := by
  decide +kernel

example : read (run .little init [.set (some (pfx 5)) true, .set none true, .set (some (pfx 7)) true]) 0 4 = none ∧
    get (run .little init [.set (some (pfx 5)) true, .set none true, .set (some (pfx 7)) true]) = some 1 := by
  decide +kernel

end Verif.PrefixGet
