import Verif.Tls
/-! # C59: thread-local values; C108, C109: keys -/

namespace Verif.Tls

theorem upd_self {α : Type} (f : Nat → α) (t : Nat) (a : α) : upd f t a t = a := by simp [upd]

theorem upd_ne {α : Type} (f : Nat → α) {t x : Nat} (a : α) (h : x ≠ t) : upd f t a x = f x := by simp [upd, h]

/-- What a thread's table entry says about the thread's values of the key. -/
def EntOk (e : Option Ent) (gen m : Nat) (vals : Nat → Nat) (inCall : Nat → Prop) : Prop :=
  match e with
  | none => m = 0
  | some e => e.seq = 2 * m - 1 ∧ (e.val = vals m ∨ (e.val = 0 ∧ m < gen ∧ ∀ n, inCall n → m < n))

/-- The thread is in a call on the incarnation `n` of the key `k`. -/
def InCall (a : Spec) (t k n : Nat) : Prop := ∃ c, a.pend t = some (c, n) ∧ c.key = k

/-- `m` is the last incarnation of the key under which the thread has stored. -/
structure TblOk (s : St) (a : Spec) (t k m : Nat) : Prop where
  le : m ≤ a.gen k
  later : ∀ n, m < n → a.store t k n = 0
  zero : a.store t k 0 = 0
  pend : ∀ n, InCall a t k n → m ≤ n
  ent : EntOk (s.tbl t)[k]? (a.gen k) m (a.store t k) (InCall a t k)

/-- The relation between the code's state and the specification's. -/
structure R (dead : Nat → Bool) (s : St) (a : Spec) : Prop where
  slot : ∀ k x, s.slots[k]? = some x → x.used = a.live k ∧ x.seq = 2 * a.gen k - (if a.live k then 1 else 0)
  gen : ∀ k, a.live k = true → 1 ≤ a.gen k
  out : ∀ k, s.slots.length ≤ k → a.live k = false ∧ a.gen k = 0
  idle : ∀ t, a.pend t = none → s.pend t = none
  call : ∀ t c n, a.pend t = some (c, n) → s.pend t = some (c, 2 * n - 1) ∧ 1 ≤ n ∧ n ≤ a.gen c.key ∧ c.key < s.slots.length
  len : ∀ t, (s.tbl t).length ≤ s.slots.length
  tbl : ∀ t, dead t = false → ∀ k, ∃ m, TblOk s a t k m

theorem R_init : R (fun _ => false) init spec0 := by
  refine ⟨?_, by simp [spec0], by simp [spec0], by simp [spec0, init], by simp [spec0], by simp [init], ?_⟩
  · intro k x h
    have h' := List.mem_of_getElem? h
    rw [init, List.mem_replicate] at h'
    rw [h'.2]; simp [spec0]
  · intro t _ k
    exact ⟨0, ⟨by simp, by simp [spec0], rfl, by intro n _; omega, by simp [EntOk, init]⟩⟩

/-- A key's incarnation count goes up: nothing changes for the tables. -/
theorem tblOk_gen {s : St} {a : Spec} {t k m : Nat} (h : TblOk s a t k m) (slots : List Slot) (live : Nat → Bool) (gen : Nat → Nat) (hg : a.gen k ≤ gen k) :
    TblOk { s with slots := slots } { a with live := live, gen := gen } t k m := by
  refine ⟨Nat.le_trans h.le hg, h.later, h.zero, h.pend, ?_⟩
  have := h.ent
  simp only [EntOk] at this ⊢
  split
  · rename_i e; rw [e] at this; exact this
  · rename_i e he
    rw [he] at this
    refine ⟨this.1, this.2.imp id (fun h => ⟨h.1, by omega, h.2.2⟩)⟩

theorem firstFree_some {slots : List Slot} {k : Nat} (h : firstFree slots = some k) : ∃ x, slots[k]? = some x ∧ x.used = false := by
  simp only [firstFree, List.findIdx?_eq_some_iff_getElem] at h
  obtain ⟨hk, h1, -⟩ := h
  exact ⟨slots[k], by simp [hk], by simpa using h1⟩

theorem R_take {dead : Nat → Bool} {s : St} {a : Spec} (h : R dead s a) (k : Nat) (x : Slot) (hx : s.slots[k]? = some x) (hu : x.used = false) :
    a.live k = false ∧ R dead (take s s.slots k) { a with live := upd a.live k true, gen := upd a.gen k (a.gen k + 1) } := by
  have h0 := h.slot k x hx
  have hl : a.live k = false := by rw [← h0.1]; exact hu
  have hk : k < s.slots.length := (List.getElem?_eq_some_iff.1 hx).1
  refine ⟨hl, ?_, ?_, ?_, h.idle, ?_, ?_, ?_⟩
  · intro j y hy
    change (s.slots.modify k _)[j]? = some y at hy
    by_cases e : j = k
    · subst e
      rw [List.getElem?_modify_eq, hx] at hy
      replace hy := Option.some.inj hy
      subst hy
      rw [hl] at h0
      simp only [upd_self, if_true]
      simp only [Bool.false_eq_true, if_false] at h0
      exact ⟨trivial, by omega⟩
    · rw [List.getElem?_modify_ne _ _ (Ne.symm e)] at hy
      simp only [upd_ne _ _ e]
      exact h.slot j y hy
  · intro j hj
    by_cases e : j = k
    · subst e; simp only [upd_self]; omega
    · simp only [upd_ne _ _ e] at hj ⊢; exact h.gen j hj
  · intro j hj
    simp only [take, List.length_modify] at hj
    have : j ≠ k := by omega
    simp only [upd_ne _ _ this]
    exact h.out j hj
  · intro t c n hp
    obtain ⟨h1, h2, h3, h4⟩ := h.call t c n hp
    refine ⟨h1, h2, ?_, by simpa [take] using h4⟩
    by_cases e : c.key = k
    · rw [e] at h3; simp only [e, upd_self]; omega
    · simp only [upd_ne _ _ e]; exact h3
  · intro t
    simpa [take] using h.len t
  · intro t hd j
    obtain ⟨m, hm⟩ := h.tbl t hd j
    refine ⟨m, tblOk_gen hm _ _ _ ?_⟩
    by_cases e : j = k
    · subst e; rw [upd_self]; omega
    · rw [upd_ne _ _ e]; exact Nat.le_refl _

theorem R_grow {dead : Nat → Bool} {s : St} {a : Spec} (h : R dead s a) (n : Nat) :
    R dead { s with slots := s.slots ++ List.replicate n ⟨false, 0⟩ } a := by
  refine ⟨?_, h.gen, ?_, h.idle, ?_, ?_, ?_⟩
  · intro k x hx
    simp only at hx
    by_cases e : k < s.slots.length
    · rw [List.getElem?_append_left e] at hx; exact h.slot k x hx
    · rw [List.getElem?_append_right (by omega)] at hx
      have hx' := List.mem_of_getElem? hx
      rw [List.mem_replicate] at hx'
      obtain ⟨h1, h2⟩ := h.out k (by omega)
      rw [hx'.2, h1, h2]; simp
  · intro k hk
    simp only [List.length_append] at hk
    exact h.out k (by omega)
  · intro t c n hp
    obtain ⟨h1, h2, h3, h4⟩ := h.call t c n hp
    exact ⟨h1, h2, h3, by simp only [List.length_append]; omega⟩
  · intro t
    have := h.len t
    simp only [List.length_append]; omega
  · intro t hd k
    obtain ⟨m, hm⟩ := h.tbl t hd k
    exact ⟨m, hm.le, hm.later, hm.zero, hm.pend, hm.ent⟩

/-- The new state of the program's own view. -/
def live' (live : Nat → Bool) : Op → Res → Nat → Bool
  | .create _, .key k => upd live k true
  | .delete k, _ => upd live k false
  | _, _ => live

def dead' (dead : Nat → Bool) : Op → Nat → Bool
  | .exit t => upd dead t true
  | _ => dead

/-- Proper use of one operation. -/
def Proper1 (live dead : Nat → Bool) : Op → Prop
  | .delete k => live k = true
  | .begin t _ => dead t = false
  | .finish t => dead t = false
  | _ => True

theorem proper_cons (live dead : Nat → Bool) (op : Op) (r : Res) (l : List (Op × Res)) (h : Proper live dead ((op, r) :: l)) :
    Proper1 live dead op ∧ Proper (live' live op r) (dead' dead op) l := by
  cases op with
  | create mem => cases r <;> simpa [Proper, Proper1, live', dead'] using h
  | delete k => simpa [Proper, Proper1, live', dead'] using h
  | begin t c => simpa [Proper, Proper1, live', dead'] using h
  | finish t => simpa [Proper, Proper1, live', dead'] using h
  | exit t => simpa [Proper, Proper1, live', dead'] using h

theorem inCall_upd_none {a : Spec} {t t' k n : Nat} {st : Nat → Nat → Nat → Nat}
    (h : InCall { a with pend := upd a.pend t none, store := st } t' k n) : t' ≠ t ∧ InCall a t' k n := by
  obtain ⟨c, h1, h2⟩ := h
  by_cases e : t' = t
  · subst e; simp [upd] at h1
  · simp only [upd_ne _ _ e] at h1
    exact ⟨e, c, h1, h2⟩

theorem step_refines {dead : Nat → Bool} {s : St} {a : Spec} (h : R dead s a) (op : Op) (hp : Proper1 a.live dead op) :
    ∃ b, SpecStep a op (step s op).2 b ∧ R (dead' dead op) (step s op).1 b ∧ b.live = live' a.live op (step s op).2 := by
  cases op with
  | create mem =>
    simp only [step, create]
    split
    · rename_i k hk
      obtain ⟨x, hx, hu⟩ := firstFree_some hk
      obtain ⟨hl, hR⟩ := R_take h k x hx hu
      exact ⟨_, .create mem k hl, hR, rfl⟩
    · split
      · exact ⟨a, .createFail mem _, h, rfl⟩
      · split
        · exact ⟨a, .createFail mem _, h, rfl⟩
        · split
          · rename_i k hk
            obtain ⟨x, hx, hu⟩ := firstFree_some hk
            have hg := R_grow h 16
            obtain ⟨hl, hR⟩ := R_take hg k x hx hu
            exact ⟨_, .create mem k hl, hR, rfl⟩
          · exact ⟨a, .createFail mem _, h, rfl⟩
  | delete k =>
    simp only [Proper1] at hp
    have hk : k < s.slots.length := by
      refine Nat.lt_of_not_le (fun hle => ?_)
      rw [(h.out k hle).1] at hp; cases hp
    simp only [step, delete, if_neg (show ¬ k ≥ s.slots.length by omega)]
    refine ⟨_, .delete k hp, ⟨?_, ?_, ?_, h.idle, ?_, ?_, ?_⟩, rfl⟩
    · intro j y hy
      simp only at hy
      by_cases e : j = k
      · subst e
        rw [List.getElem?_modify_eq] at hy
        obtain ⟨x, hx, hxy⟩ := Option.map_eq_some_iff.1 hy
        subst hxy
        have h0 := h.slot j x hx
        have hg := h.gen j hp
        rw [hp] at h0
        simp only [upd_self, Bool.false_eq_true, if_false, if_true] at h0 ⊢
        exact ⟨trivial, by omega⟩
      · rw [List.getElem?_modify_ne _ _ (Ne.symm e)] at hy
        simp only [upd_ne _ _ e]
        exact h.slot j y hy
    · intro j hj
      by_cases e : j = k
      · subst e; simp [upd_self] at hj
      · simp only [upd_ne _ _ e] at hj; exact h.gen j hj
    · intro j hj
      simp only [List.length_modify] at hj
      have := h.out j hj
      refine ⟨?_, this.2⟩
      by_cases e : j = k
      · subst e; simp [upd_self]
      · simp only [upd_ne _ _ e]; exact this.1
    · intro t c n hpd
      obtain ⟨h1, h2, h3, h4⟩ := h.call t c n hpd
      exact ⟨h1, h2, h3, by simpa using h4⟩
    · intro t; simpa using h.len t
    · intro t hd j
      obtain ⟨m, hm⟩ := h.tbl t hd j
      exact ⟨m, tblOk_gen hm _ _ _ (Nat.le_refl _)⟩
  | begin t c =>
    simp only [step]
    cases hpd : a.pend t with
    | some p =>
      obtain ⟨c', n⟩ := p
      rw [(h.call t c' n hpd).1]
      exact ⟨a, .inCall t c (by simp [hpd]), h, rfl⟩
    | none =>
      rw [h.idle t hpd]
      simp only [begin_]
      cases hl : a.live c.key with
      | false =>
        have hfail : ∀ x, s.slots[c.key]? = some x → ¬ x.seq % 2 = 1 := by
          intro x hx
          have := (h.slot _ x hx).2
          rw [hl] at this
          simp only [Bool.false_eq_true, if_false] at this
          omega
        cases hx : s.slots[c.key]? with
        | none =>
          cases c with
          | get k => exact ⟨a, .getDead t k hpd hl, h, rfl⟩
          | set k v => exact ⟨a, .setDead t k v hpd hl, h, rfl⟩
        | some x =>
          simp only [if_neg (hfail x hx)]
          cases c with
          | get k => exact ⟨a, .getDead t k hpd hl, h, rfl⟩
          | set k v => exact ⟨a, .setDead t k v hpd hl, h, rfl⟩
      | true =>
        have hk : c.key < s.slots.length := by
          refine Nat.lt_of_not_le (fun hle => ?_)
          rw [(h.out _ hle).1] at hl; cases hl
        obtain ⟨x, hx⟩ : ∃ x, s.slots[c.key]? = some x := ⟨_, List.getElem?_eq_getElem hk⟩
        have hg := h.gen _ hl
        have hseq := (h.slot _ x hx).2
        rw [hl] at hseq
        simp only [if_true] at hseq
        simp only [hx, if_pos (show x.seq % 2 = 1 by omega)]
        refine ⟨_, .begin t c hpd hl, ⟨h.slot, h.gen, h.out, ?_, ?_, h.len, ?_⟩, rfl⟩
        · intro t' hp'
          by_cases e : t' = t
          · subst e; simp [upd] at hp'
          · simp only [upd_ne _ _ e] at hp' ⊢; exact h.idle t' hp'
        · intro t' c' n hp'
          by_cases e : t' = t
          · subst e
            simp only [upd_self, Option.some.injEq, Prod.mk.injEq] at hp' ⊢
            obtain ⟨h1, h2⟩ := hp'
            subst h1; subst h2
            exact ⟨⟨rfl, hseq⟩, hg, Nat.le_refl _, hk⟩
          · simp only [upd_ne _ _ e] at hp' ⊢; exact h.call t' c' n hp'
        · intro t' hd k
          obtain ⟨m, hm⟩ := h.tbl t' hd k
          have key : ∀ n, InCall { a with pend := upd a.pend t (some (c, a.gen c.key)) } t' k n → n = a.gen k ∨ InCall a t' k n := by
            rintro n ⟨c', h1, h2⟩
            by_cases e : t' = t
            · subst e
              simp only [upd_self, Option.some.injEq, Prod.mk.injEq] at h1
              obtain ⟨h3, h4⟩ := h1
              subst h3; subst h4; subst h2
              exact Or.inl rfl
            · simp only [upd_ne _ _ e] at h1
              exact Or.inr ⟨c', h1, h2⟩
          refine ⟨m, hm.le, hm.later, hm.zero, ?_, ?_⟩
          · intro n hn
            rcases key n hn with e | e
            · subst e; exact hm.le
            · exact hm.pend n e
          · have := hm.ent
            simp only [EntOk] at this ⊢
            split
            · rename_i e; rw [e] at this; exact this
            · rename_i e he
              rw [he] at this
              refine ⟨this.1, this.2.imp id (fun h => ⟨h.1, h.2.1, fun n hn => ?_⟩)⟩
              rcases key n hn with e | e
              · subst e; exact h.2.1
              · exact h.2.2 n e
  | finish t =>
    simp only [Proper1] at hp
    simp only [step, finish]
    cases hpd : a.pend t with
    | none =>
      rw [h.idle t hpd]
      exact ⟨a, .idle t hpd, h, rfl⟩
    | some p =>
      obtain ⟨c, n⟩ := p
      obtain ⟨h1, h2, h3, h4⟩ := h.call t c n hpd
      rw [h1]
      have hidle : ∀ (st : Nat → Nat → Nat → Nat) t', (upd a.pend t none) t' = none → (upd s.pend t none) t' = none := by
        intro _ t' hp'
        by_cases e : t' = t
        · subst e; simp [upd]
        · rw [upd_ne _ _ e] at hp' ⊢; exact h.idle t' hp'
      have hcall : ∀ t' c' n', (upd a.pend t none) t' = some (c', n') →
          (upd s.pend t none) t' = some (c', 2 * n' - 1) ∧ 1 ≤ n' ∧ n' ≤ a.gen c'.key ∧ c'.key < s.slots.length := by
        intro t' c' n' hp'
        by_cases e : t' = t
        · subst e; simp [upd] at hp'
        · rw [upd_ne _ _ e] at hp' ⊢; exact h.call t' c' n' hp'
      obtain hh := h.tbl t hp c.key
      obtain ⟨m, hm⟩ := hh
      have hmn : m ≤ n := hm.pend n ⟨c, hpd, rfl⟩
      cases c with
      | get k =>
        simp only [Call.key] at hm h3 h4
        have hent := hm.ent
        -- the value read is the one of this incarnation
        have hval : (finishGet (s.tbl t) k (2 * n - 1)).2 = .val (a.store t k n) := by
          simp only [finishGet]
          cases he : (s.tbl t)[k]? with
          | none =>
            rw [he] at hent
            simp only [EntOk] at hent
            simp only; rw [hm.later n (by omega)]
          | some e =>
            rw [he] at hent
            simp only [EntOk] at hent
            simp only
            by_cases hv : e.val ≠ 0 ∧ e.seq ≠ 2 * n - 1
            · rw [if_pos hv]
              have : m < n := by
                rcases Nat.lt_or_ge m n with h | h
                · exact h
                · exact absurd (show e.seq = 2 * n - 1 by rw [hent.1, show m = n by omega]) hv.2
              rw [hm.later n this]
            · rw [if_neg hv]
              simp only [Res.val.injEq]
              by_cases hz : e.val = 0
              · rcases hent.2 with h5 | h5
                · rcases Nat.lt_or_ge m n with h | h
                  · rw [hz, hm.later n h]
                  · rw [h5, show m = n by omega]
                · rw [h5.1, hm.later n (h5.2.2 n ⟨_, hpd, rfl⟩)]
              · have hs : e.seq = 2 * n - 1 := Decidable.not_not.1 (fun hc => hv ⟨hz, hc⟩)
                have : m = n := by omega
                subst this
                rcases hent.2 with h5 | h5
                · exact h5
                · exact absurd h5.1 hz
        simp only [hval]
        refine ⟨_, .get t k n hpd, ⟨h.slot, h.gen, h.out, hidle a.store, hcall, ?_, ?_⟩, rfl⟩
        · intro t'
          by_cases e : t' = t
          · subst e
            simp only [upd_self, finishGet]
            have := h.len t'
            split
            · exact this
            · split
              · simpa using this
              · exact this
          · simp only [upd_ne _ _ e]; exact h.len t'
        · intro t' hd j
          obtain ⟨m', hm'⟩ := h.tbl t' hd j
          refine ⟨m', hm'.le, hm'.later, hm'.zero, fun x hx => hm'.pend x (inCall_upd_none (st := a.store) hx).2, ?_⟩
          have hent' := hm'.ent
          by_cases e : t' = t
          · subst e
            have hno : ∀ (x : Nat), ¬ InCall { a with pend := upd a.pend t' none } t' j x := fun x hx => (inCall_upd_none (st := a.store) hx).1 rfl
            -- the table is unchanged, or the entry of `k` is cleared
            simp only [upd_self]
            have hsame : EntOk (s.tbl t')[j]? (a.gen j) m' (a.store t' j) (InCall { a with pend := upd a.pend t' none } t' j) := by
              simp only [EntOk] at hent' ⊢
              split
              · rename_i he; rw [he] at hent'; exact hent'
              · rename_i e he
                rw [he] at hent'
                exact ⟨hent'.1, hent'.2.imp id (fun h => ⟨h.1, h.2.1, fun n hn => absurd hn (hno n)⟩)⟩
            simp only [finishGet]
            split
            · exact hsame
            · rename_i e he
              split
              · rename_i hv
                by_cases hjk : j = k
                · subst hjk
                  rw [List.getElem?_set_self (List.getElem?_eq_some_iff.1 he).1]
                  rw [he] at hent'
                  simp only [EntOk] at hent' ⊢
                  refine ⟨hent'.1, Or.inr ⟨trivial, ?_, fun n hn => absurd hn (hno n)⟩⟩
                  have h5 : m' ≤ n := hm'.pend n ⟨_, hpd, rfl⟩
                  have h6 : m' ≠ n := fun hc => hv.2 (by rw [hent'.1, hc])

                  omega
                · rw [List.getElem?_set_ne (Ne.symm hjk)]; exact hsame
              · exact hsame
          · simp only [upd_ne _ _ e]
            simp only [EntOk] at hent' ⊢
            split
            · rename_i he; rw [he] at hent'; exact hent'
            · rename_i e he
              rw [he] at hent'
              exact ⟨hent'.1, hent'.2.imp id (fun h => ⟨h.1, h.2.1, fun n hn => h.2.2 n (inCall_upd_none (st := a.store) hn).2⟩)⟩
      | set k v =>
        simp only [Call.key] at hm h3 h4
        have hlen : ((if k ≥ (s.tbl t).length then s.tbl t ++ List.replicate (s.slots.length - (s.tbl t).length) (⟨0, 0⟩ : Ent) else s.tbl t)).length ≤ s.slots.length ∧
            k < ((if k ≥ (s.tbl t).length then s.tbl t ++ List.replicate (s.slots.length - (s.tbl t).length) (⟨0, 0⟩ : Ent) else s.tbl t)).length := by
          have := h.len t
          split
          · simp only [List.length_append, List.length_replicate]; omega
          · omega
        have hget : ∀ (j : Nat), ((if k ≥ (s.tbl t).length then s.tbl t ++ List.replicate (s.slots.length - (s.tbl t).length) (⟨0, 0⟩ : Ent) else s.tbl t))[j]? = (s.tbl t)[j]? ∨
            ((s.tbl t)[j]? = none ∧
              ((if k ≥ (s.tbl t).length then s.tbl t ++ List.replicate (s.slots.length - (s.tbl t).length) (⟨0, 0⟩ : Ent) else s.tbl t))[j]? = some (⟨0, 0⟩ : Ent)) := by
          intro j
          split
          · by_cases hj : j < (s.tbl t).length
            · left; rw [List.getElem?_append_left hj]
            · rw [List.getElem?_append_right (by omega), List.getElem?_eq_none (l := s.tbl t) (by omega)]
              rw [List.getElem?_replicate]
              split
              · right; exact ⟨rfl, rfl⟩
              · left; rfl
          · left; rfl
        simp only [finishSet]
        generalize hT : (if k ≥ (s.tbl t).length then s.tbl t ++ List.replicate (s.slots.length - (s.tbl t).length) (⟨0, 0⟩ : Ent) else s.tbl t) = T at hlen hget
        refine ⟨_, .set t k v n hpd, ⟨h.slot, h.gen, h.out, hidle a.store, hcall, ?_, ?_⟩, rfl⟩
        · intro t'
          by_cases e : t' = t
          · subst e; simp only [upd_self, List.length_set]; exact hlen.1
          · simp only [upd_ne _ _ e]; exact h.len t'
        · intro t' hd j
          obtain ⟨m', hm'⟩ := h.tbl t' hd j
          have hent' := hm'.ent
          by_cases e : t' = t
          · subst e
            have hno : ∀ st (x : Nat), ¬ InCall { a with pend := upd a.pend t' none, store := st } t' j x := fun st x hx => (inCall_upd_none hx).1 rfl
            by_cases hjk : j = k
            · subst hjk
              refine ⟨n, h3, ?_, by simp only [upd_self]; rw [upd_ne _ _ (by omega)]; exact hm'.zero, fun x hx => absurd hx (hno _ x), ?_⟩
              · intro x hx
                simp only [upd_self]
                rw [upd_ne _ _ (by omega)]
                exact hm'.later x (by have := hm'.pend n ⟨_, hpd, rfl⟩; omega)
              · simp only [upd_self, List.getElem?_set_self hlen.2]
                exact ⟨rfl, Or.inl (by simp [upd])⟩
            · refine ⟨m', hm'.le, ?_, by simp only [upd_self, upd_ne _ _ hjk]; exact hm'.zero, fun x hx => absurd hx (hno _ x), ?_⟩
              · intro x hx
                simp only [upd_self, upd_ne _ _ hjk]
                exact hm'.later x hx
              · simp only [upd_self, upd_ne _ _ hjk, List.getElem?_set_ne (Ne.symm hjk)]
                rcases hget j with hg | ⟨hg1, hg2⟩
                · rw [hg]
                  simp only [EntOk] at hent' ⊢
                  split
                  · rename_i he; rw [he] at hent'; exact hent'
                  · rename_i e he
                    rw [he] at hent'
                    exact ⟨hent'.1, hent'.2.imp id (fun h => ⟨h.1, h.2.1, fun n hn => absurd hn (hno _ n)⟩)⟩
                · rw [hg2]
                  rw [hg1] at hent'
                  simp only [EntOk] at hent' ⊢
                  subst hent'
                  refine ⟨rfl, ?_⟩
                  exact Or.inl hm'.zero.symm
          · refine ⟨m', hm'.le, ?_, by simp only [upd_ne _ _ e]; exact hm'.zero, fun x hx => hm'.pend x (inCall_upd_none hx).2, ?_⟩
            · intro x hx
              simp only [upd_ne _ _ e]
              exact hm'.later x hx
            · simp only [upd_ne _ _ e]
              simp only [EntOk] at hent' ⊢
              split
              · rename_i he; rw [he] at hent'; exact hent'
              · rename_i e he
                rw [he] at hent'
                exact ⟨hent'.1, hent'.2.imp id (fun h => ⟨h.1, h.2.1, fun n hn => h.2.2 n (inCall_upd_none hn).2⟩)⟩
  | exit t =>
    simp only [step]
    refine ⟨_, .exit t, ⟨h.slot, h.gen, h.out, h.idle, h.call, h.len, ?_⟩, rfl⟩
    intro t' hd k
    have e : t' ≠ t := by
      intro e; subst e; simp [dead', upd] at hd
    have hd' : dead t' = false := by simpa [dead', upd_ne _ _ e] using hd
    obtain ⟨m, hm⟩ := h.tbl t' hd' k
    refine ⟨m, hm.le, ?_, by simp only [upd_ne _ _ e]; exact hm.zero, hm.pend, ?_⟩
    · intro n hn; simp only [upd_ne _ _ e]; exact hm.later n hn
    · simp only [upd_ne _ _ e]; exact hm.ent

/-! ## C59 -/

theorem run_refines (ops : List Op) : ∀ (dead : Nat → Bool) (s : St) (a : Spec), R dead s a → Proper a.live dead (ops.zip (run s ops).2) →
    ∃ b, SpecRun a (ops.zip (run s ops).2) b := by
  induction ops with
  | nil => intro dead s a _ _; exact ⟨a, .nil a⟩
  | cons op ops ih =>
    intro dead s a h hp
    simp only [run, List.zip_cons_cons] at hp ⊢
    obtain ⟨hp1, hp2⟩ := proper_cons _ _ _ _ _ hp
    obtain ⟨b, h1, h2, h3⟩ := step_refines h op hp1
    obtain ⟨c, hc⟩ := ih _ _ b h2 (by rw [h3]; exact hp2)
    exact ⟨c, .cons h1 hc⟩

/-- **C59.**  For every interleaving of the threads' calls in which only existing keys are deleted and no thread id is reused, all results are those of the
specification, in which each thread has its own values for each incarnation of each key. -/
theorem C59_refines_partial (ops : List Op) (hp : Proper (fun _ => false) (fun _ => false) (ops.zip (run init ops).2)) :
    ∃ b, SpecRun spec0 (ops.zip (run init ops).2) b :=
  run_refines ops _ init spec0 R_init hp

/-- Two threads' calls on one key, which is deleted and created again in the midst of a call of the first. -/
def okOps : List Op := [.create true, .begin 1 (.set 0 11), .finish 1, .begin 2 (.get 0), .finish 2, .begin 2 (.set 0 22), .finish 2, .begin 1 (.get 0), .finish 1,
  .begin 1 (.set 0 33), .delete 0, .create true, .finish 1, .begin 1 (.get 0), .finish 1, .begin 2 (.get 0), .finish 2]

example : (run init okOps).2 = [.key 0, .busy, .ok, .busy, .val 0, .busy, .ok, .busy, .val 11,
  .busy, .ok, .key 0, .ok, .busy, .val 0, .busy, .val 0] := by decide +kernel

example : Proper (fun _ => false) (fun _ => false) (okOps.zip (run init okOps).2) := by
  have : (run init okOps).2 = [.key 0, .busy, .ok, .busy, .val 0, .busy, .ok, .busy, .val 11,
    .busy, .ok, .key 0, .ok, .busy, .val 0, .busy, .val 0] := by decide +kernel
  rw [this]
  simp [okOps, Proper, upd]

/-- Thread 1 stores a value and ends; a new thread gets the id 1 and reads the key. -/
def reuseOps : List Op := [.create true, .begin 1 (.set 0 11), .finish 1, .exit 1, .begin 1 (.get 0), .finish 1]

/-- In the specification the reading at the end of such a history gives NULL. -/
theorem reuse_spec (b : Spec) (r : Res) (h : SpecRun spec0 [(.create true, .key 0), (.begin 1 (.set 0 11), .busy), (.finish 1, .ok), (.exit 1, .ok),
    (.begin 1 (.get 0), .busy), (.finish 1, r)] b) : r = .val 0 ∨ r = .busy := by
  cases h with | cons h1 t1 =>
  cases h1
  cases t1 with | cons h2 t2 =>
  cases h2 with
  | inCall _ _ hp => simp [spec0] at hp
  | begin _ _ hp hl =>
  cases t2 with | cons h3 t3 =>
  cases h3 with | set _ k v n hp3 =>
  cases t3 with | cons h4 t4 =>
  cases h4
  cases t4 with | cons h5 t5 =>
  cases h5 with
  | inCall _ _ hp => simp [spec0, upd] at hp
  | begin _ _ hp5 hl5 =>
  cases t5 with | cons h6 t6 =>
  cases h6 with
  | get _ k6 n6 hp6 => left; simp [upd]
  | set _ k6 v6 n6 hp6 => simp [upd] at hp6
  | idle => right; rfl

/-- **C59** fails when the system gives a new thread the id of an ended one: the new thread reads the value the ended thread stored. -/
theorem C59_id_reuse : (run init reuseOps).2 = [.key 0, .busy, .ok, .ok, .busy, .val 11] ∧ ¬ ∃ b, SpecRun spec0 (reuseOps.zip (run init reuseOps).2) b := by
  have h : (run init reuseOps).2 = [.key 0, .busy, .ok, .ok, .busy, .val 11] := by decide +kernel
  refine ⟨h, ?_⟩
  rw [h]
  rintro ⟨b, hb⟩
  rcases reuse_spec b _ hb with e | e <;> cases e

/-! ## C108: deleting a key that does not exist -/

/-- **C108** fails: deleting a key twice makes it usable again without having been created ... -/
theorem C108_revived : (run init [.create true, .delete 0, .delete 0, .begin 1 (.set 0 7), .finish 1, .begin 1 (.get 0), .finish 1]).2 =
    [.key 0, .ok, .ok, .busy, .ok, .busy, .val 7] := by decide +kernel

/-- ... and the next creation of a key returns one that cannot be used. -/
theorem C108_broken : (run init [.create true, .delete 0, .delete 0, .create true, .begin 1 (.set 0 7)]).2 =
    [.key 0, .ok, .ok, .key 0, .err eINVAL] := by decide +kernel

/-- **C108**, what holds: the deletion of a number beyond all keys is refused and changes nothing. -/
theorem C108_out_partial (s : St) (k : Nat) (h : s.slots.length ≤ k) : step s (.delete k) = (s, .err eINVAL) := by
  simp [step, delete, h]

/-! ## C109: the number of keys -/

/-- The number of keys that exist. -/
def count (s : St) : Nat := (s.slots.filter (·.used)).length

theorem firstFree_none {slots : List Slot} (h : firstFree slots = none) : (slots.filter (·.used)).length = slots.length := by
  simp only [firstFree, List.findIdx?_eq_none_iff] at h
  rw [List.filter_eq_self.2]
  intro x hx
  simpa using h x hx

/-- The size of the key table is a multiple of 16 and never above 240. -/
theorem size_ok (ops : List Op) : ∀ (s : St), (s.slots.length % 16 = 0 ∧ s.slots.length ≤ 240) → ((run s ops).1.slots.length % 16 = 0 ∧ (run s ops).1.slots.length ≤ 240) := by
  induction ops with
  | nil => intro s h; exact h
  | cons op ops ih =>
    intro s h
    refine ih _ ?_
    cases op with
    | create mem =>
      simp only [step, create]
      split
      · simpa [take] using h
      · split
        · exact h
        · split
          · exact h
          · rename_i h1 h2
            have h3 : ¬ (s.slots.length + 16) % 256 = 0 := fun hc => h2 (Or.inl hc)
            split
            · simp only [take, List.length_modify, List.length_append, List.length_replicate]; omega
            · exact h
    | delete k => simp only [step, delete]; split <;> simpa using h
    | begin t c =>
      simp only [step]
      split
      · exact h
      · simp only [begin_]; split
        · exact h
        · split <;> exact h
    | finish t =>
      simp only [step, finish]
      split <;> exact h
    | exit t => exact h

/-- **C109**, what holds: as long as fewer than 240 keys exist and memory is available, a key can be created, after any history. -/
theorem C109_create_partial (ops : List Op) (h : count (run init ops).1 < 240) : ∃ k, (step (run init ops).1 (.create true)).2 = .key k := by
  obtain ⟨h1, h2⟩ := size_ok ops init (by simp [init])
  generalize (run init ops).1 = s at h h1 h2
  simp only [step, create]
  cases hf : firstFree s.slots with
  | some k => exact ⟨k, rfl⟩
  | none =>
    have hc := firstFree_none hf
    simp only [count] at h
    simp only
    rw [if_neg (by omega), if_neg (by simp; omega)]
    cases hg : firstFree (s.slots ++ List.replicate 16 ⟨false, 0⟩) with
    | some k => exact ⟨k, rfl⟩
    | none =>
      have := firstFree_none hg
      simp only [List.filter_append, List.length_append, List.length_replicate] at this
      simp at this
      omega

/-- **C109** fails: 240 keys exist after 240 creations, and the 241st fails, although the stated limit is 512: the size of the enlarged table, 256, is passed as an 8-bit number. -/
theorem C109_limit : count (run init (List.replicate 240 (.create true))).1 = 240 ∧
    (run init (List.replicate 240 (.create true) ++ [.create true])).2.getLast? = some (.err eNOMEM) := by
  decide +kernel

/-- In general: no history has more than 240 keys at once. -/
theorem C109_never_more (ops : List Op) : count (run init ops).1 ≤ 240 := by
  obtain ⟨-, h2⟩ := size_ok ops init (by simp [init])
  exact Nat.le_trans (List.length_filter_le _ _) h2

end Verif.Tls
