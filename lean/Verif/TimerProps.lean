import Verif.Timer
import Verif.RBTreeProps
/-! Theorems about the timer model: C28-C32, C89. -/
namespace Verif.Timer
open Verif.RBTree

/-! ## Specification: which timers are pending, from the observable history alone -/
namespace Spec

/-- Expiry and moment of scheduling of a timer that is pending after the history (newest event
    first): the latest event about the timer is a scheduling. -/
def pending : List Ev → Nat → Option (Nat × Nat)
  | [], _ => none
  | .sched i e :: h, j => if j = i then some (e, h.length) else pending h j
  | .cancel i :: h, j => if j = i then none else pending h j
  | .kill i :: h, j => if j = i then none else pending h j
  | .fire i _ _ :: h, j => if j = i then none else pending h j

end Spec
open Spec

/-! ## The timer base is a sorted list -/

theorem cmp_le (a b : Node) : cmp a b ≤ 0 ↔ a.expire ≤ b.expire := by
  unfold cmp; split
  · simp; omega
  · split <;> simp <;> omega

theorem cmp_gt (a b : Node) : cmp a b > 0 ↔ a.expire > b.expire := by
  have := cmp_le a b
  omega

theorem cmp_lawful : Lawful cmp where
  flip a b := by
    unfold cmp
    split <;> split <;> (try split) <;> (try split) <;> simp <;> omega
  trans a b c := by
    rw [cmp_le, cmp_le, cmp_le]; omega

theorem rbPrev_eq (p : Path Node) : rbPrev p = (before p).getLast? := by
  induction p with
  | nil => rfl
  | cons f p ih =>
    obtain ⟨d, c, k, s⟩ := f
    cases d
    · simpa [rbPrev, before] using ih
    · simp [rbPrev, before]

theorem rbPrev_none {p : Path Node} (h : rbPrev p = none) :
    before p = [] ∧ (after p).head? = rbParent p := by
  have h1 : before p = [] := by
    rw [rbPrev_eq] at h; simpa using h
  refine ⟨h1, ?_⟩
  cases p with
  | nil => rfl
  | cons f p =>
    obtain ⟨d, c, k, s⟩ := f
    cases d
    · simp [after, rbParent]
    · simp [before] at h1

theorem insertAfter_eq (p n : Node) (a c : List Node) (h : p ∉ a) :
    insertAfter p n (a ++ p :: c) = a ++ p :: n :: c := by
  induction a with
  | nil => simp [insertAfter]
  | cons y a ih =>
    simp at h
    have : y ≠ p := fun h' => h.1 h'.symm
    simp [insertAfter, this, ih h.2]

/-- The two views of the timer base agree. -/
structure Rep (b : Base) : Prop where
  good : Good cmp b.root
  same : b.root.tree.inorder = b.chain
  nodup : (b.chain.map (·.id)).Nodup

theorem rep_init : Rep ⟨Root.init, []⟩ := ⟨good_init cmp, rfl, by simp⟩

theorem insert_rep {b : Base} (h : Rep b) (n : Node) (hn : ∀ m ∈ b.chain, m.id ≠ n.id) :
    ∃ b' a c, insertTimer b n = some b' ∧ b.chain = a ++ c ∧ b'.chain = a ++ n :: c ∧
      (∀ y ∈ a, y.expire ≤ n.expire) ∧ (∀ y ∈ c, y.expire > n.expire) ∧ Rep b' := by
  obtain ⟨hg, hsame, hnd⟩ := h
  obtain ⟨r', hr', hio, hg'⟩ := exec_insert cmp_lawful hg n
  obtain ⟨a, c, h1, h2, h3, h4, h5⟩ := findLinks_before cmp cmp_lawful n b.root.tree [] hg.sorted
  simp [before, after] at h1 h2
  rw [hsame] at h3
  have hio' : r'.tree.inorder = a ++ n :: c := by
    rw [hio, hsame, h3, specInsert_eq h4 h5]
  unfold Root.insertNode at hr'
  cases hf : insertFix (.node .red .nil n .nil) (findLinks cmp n b.root.tree []) with
  | none => simp [hf] at hr'
  | some t =>
    simp [hf] at hr'
    have hch : linkList n (rbPrev (findLinks cmp n b.root.tree []))
        (rbParent (findLinks cmp n b.root.tree [])) b.chain = a ++ n :: c := by
      cases hp : rbPrev (findLinks cmp n b.root.tree []) with
      | none =>
        obtain ⟨hb, ha⟩ := rbPrev_none hp
        rw [h1] at hb; subst hb
        rw [h2] at ha
        rw [← ha, h3]
        cases c with
        | nil => simp [linkList]
        | cons y c => simp [linkList]
      | some p =>
        rw [rbPrev_eq, h1] at hp
        obtain ⟨a', ha'⟩ : ∃ a', a = a' ++ [p] := by
          rcases List.eq_nil_or_concat a with h | ⟨a', x, h⟩
          · subst h; simp at hp
          · subst h; simp at hp; subst hp; exact ⟨a', by simp⟩
        subst ha'
        simp only [linkList]
        rw [h3]
        simp only [List.append_assoc, List.singleton_append]
        rw [insertAfter_eq]
        rw [h3] at hnd
        intro hmem
        rw [List.append_assoc, List.map_append, List.nodup_append] at hnd
        exact hnd.2.2 p.id (List.mem_map_of_mem hmem) p.id (by simp) rfl
    refine ⟨⟨⟨t, b.root.count + 1⟩, linkList n (rbPrev (findLinks cmp n b.root.tree []))
        (rbParent (findLinks cmp n b.root.tree [])) b.chain⟩, a, c, ?_, h3, hch, ?_, ?_, ?_⟩
    · simp [insertTimer, hf]
    · intro y hy; exact (cmp_le y n).1 (h4 y hy)
    · intro y hy; exact (cmp_gt y n).1 (h5 y hy)
    · subst hr'
      refine ⟨hg', by rw [hch]; exact hio', ?_⟩
      rw [hch]
      rw [h3] at hnd hn
      simp [List.nodup_append] at hnd hn ⊢
      grind

theorem locate_some (id : Nat) (t : Tree Node) (p : Path Node) (q : Pos Node)
    (h : locate id t p = some q) : q.whole = plug t p ∧ q.elem.id = id := by
  induction t generalizing p with
  | nil => simp [locate] at h
  | node c l y r ihl ihr =>
    unfold locate at h
    split at h
    · simp at h; subst h
      rename_i q' hq
      have := ihl _ hq
      exact ⟨this.1, this.2⟩
    · split at h
      · simp at h; subst h; rename_i hy; exact ⟨rfl, hy⟩
      · have := ihr _ h
        exact ⟨this.1, this.2⟩

theorem locate_none (id : Nat) (t : Tree Node) (p : Path Node)
    (h : locate id t p = none) : ∀ y ∈ t.inorder, y.id ≠ id := by
  induction t generalizing p with
  | nil => simp [Tree.inorder]
  | node c l y r ihl ihr =>
    unfold locate at h
    split at h
    · simp at h
    · split at h
      · simp at h
      · rename_i hl hy
        intro z hz
        simp [Tree.inorder] at hz
        rcases hz with hz | hz | hz
        · exact ihl _ hl z hz
        · subst hz; exact hy
        · exact ihr _ h z hz

theorem unlink_rep {b : Base} (h : Rep b) {n : Node} (hn : n ∈ b.chain) :
    ∃ b' a c, unlinkTimer b n.id = some b' ∧ b.chain = a ++ n :: c ∧ b'.chain = a ++ c ∧ Rep b' := by
  obtain ⟨hg, hsame, hnd⟩ := h
  cases hl : locate n.id b.root.tree [] with
  | none => exact absurd rfl (locate_none _ _ _ hl n (by rw [hsame]; exact hn))
  | some q =>
    obtain ⟨hw, hid⟩ := locate_some _ _ _ _ hl
    obtain ⟨r', h1, h2, h3, h4⟩ := exec_erase hg q hw
    rw [hsame] at h3
    have hqn : q.elem = n := by
      have hq : q.elem ∈ b.chain := by rw [h3]; simp
      have := List.pairwise_map.1 hnd
      rcases List.mem_iff_append.1 hq with ⟨u, v, huv⟩
      rw [huv] at this hn
      simp [List.pairwise_append] at this hn
      rcases hn with hn | hn | hn
      · exact absurd hid.symm (this.2.2 n hn).1
      · exact hn.symm
      · exact absurd hid (this.2.1.1 n hn)
    have hch : unlinkList n.id b.chain = q.pre ++ q.post := by
      rw [h3] at hnd ⊢
      simp [List.nodup_append] at hnd
      have h5 : ∀ y ∈ q.pre, ¬ ((y.id == n.id) = true) := by
        intro y hy hh
        simp at hh
        have := (hnd.2.2 y hy).1
        rw [hqn] at this
        exact this hh
      unfold unlinkList
      rw [List.eraseP_append_right _ h5]
      simp [hqn]
    refine ⟨⟨r', unlinkList n.id b.chain⟩, q.pre, q.post, ?_, by rw [h3, hqn], hch, h4, ?_, ?_⟩
    · simp [unlinkTimer, hl, h1]
    · rw [hch]; exact h2
    · rw [hch]
      rw [h3] at hnd
      simp [List.nodup_append] at hnd ⊢
      grind

/-! ## Invariant of a queue -/

/-- Earlier expiry, or the same expiry scheduled earlier. -/
def Before (a b : Node) : Prop := a.expire < b.expire ∨ (a.expire = b.expire ∧ a.seq < b.seq)

/-- `P` says which timers are pending. -/
structure Inv (q : Q) (P : Nat → Option (Nat × Nat)) : Prop where
  rep : Rep q.base
  order : q.base.chain.Pairwise Before
  seqlt : ∀ n ∈ q.base.chain, n.seq < q.hist.length
  pend : ∀ j e s, P j = some (e, s) ↔ (⟨j, e, s⟩ : Node) ∈ q.base.chain
  recs : ∀ j, (∃ n ∈ q.base.chain, n.id = j) ↔ ∃ r, q.recs j = some r ∧ r.linked = true
  fresh : ∀ j, q.nextId ≤ j → q.recs j = none

theorem inv_init (t : Nat) : Inv (Q.init t) (pending []) := by
  refine ⟨rep_init, ?_, ?_, ?_, ?_, ?_⟩ <;> simp [Q.init, pending]

def updP (P : Nat → Option (Nat × Nat)) (i : Nat) (v : Option (Nat × Nat)) :
    Nat → Option (Nat × Nat) := fun j => if j = i then v else P j

/-- Everything but base, recs and hist is kept. -/
def SameRest (q q' : Q) : Prop := q'.nextId = q.nextId ∧ q'.clock = q.clock ∧ q'.loopNow = q.loopNow

theorem unlinkIf_inv {q : Q} {P} (h : Inv q P) {id : Nat} {r : Rec} (hr : q.recs id = some r) :
    ∃ q', q.unlinkIf id = .ok q' ∧ Inv q' (updP P id none) ∧ q'.hist = q.hist ∧ SameRest q q' ∧
      q'.recs = upd q.recs id (some ⟨r.interval, false⟩) ∧
      q'.base.chain = q.base.chain.filter (fun n => n.id != id) := by
  unfold Q.unlinkIf
  simp only [hr]
  cases hl : r.linked with
  | false =>
    have hno : ∀ n ∈ q.base.chain, n.id ≠ id := by
      intro n hn hid
      obtain ⟨r', h1, h2⟩ := (h.recs id).1 ⟨n, hn, hid⟩
      rw [hr] at h1; simp at h1; subst h1; rw [hl] at h2; simp at h2
    refine ⟨q, by simp, ?_, rfl, ⟨rfl, rfl, rfl⟩, ?_, ?_⟩
    · refine ⟨h.rep, h.order, h.seqlt, ?_, h.recs, h.fresh⟩
      intro j e s
      unfold updP
      by_cases hj : j = id
      · simp [hj]
        intro hm
        exact hno _ hm rfl
      · simp [hj]; exact h.pend j e s
    · funext j
      unfold upd
      by_cases hj : j = id
      · subst hj; simp [hr, ← hl]
      · simp [hj]
    · symm; rw [List.filter_eq_self]
      intro n hn; simpa using hno n hn
  | true =>
    obtain ⟨n, hn, hid⟩ := (h.recs id).2 ⟨r, hr, hl⟩
    obtain ⟨b', a, c, h1, h2, h3, h4⟩ := unlink_rep h.rep hn
    rw [hid] at h1
    have hnd := List.pairwise_map.1 h.rep.nodup
    rw [h2, List.pairwise_append, List.pairwise_cons] at hnd
    have hfil : b'.chain = q.base.chain.filter (fun n => n.id != id) := by
      rw [h2, h3, List.filter_append, List.filter_cons]
      have e1 : a.filter (fun n => n.id != id) = a := by
        rw [List.filter_eq_self]; intro m hm
        have := hnd.2.2 m hm n (by simp)
        simp; rw [← hid]; exact this
      have e2 : c.filter (fun n => n.id != id) = c := by
        rw [List.filter_eq_self]; intro m hm
        have := hnd.2.1.1 m hm
        simp; rw [← hid]; exact fun h => this h.symm
      simp [e1, e2, hid]
    refine ⟨⟨b', upd q.recs id (some ⟨r.interval, false⟩), q.nextId, q.clock, q.loopNow, q.hist⟩,
      by simp [h1], ⟨h4, ?_, ?_, ?_, ?_, ?_⟩, rfl, ⟨rfl, rfl, rfl⟩, rfl, hfil⟩
    · rw [hfil]; exact h.order.filter _
    · intro m hm
      simp only [hfil, List.mem_filter] at hm
      exact h.seqlt m hm.1
    · intro j e s
      simp only [hfil, List.mem_filter]
      unfold updP
      by_cases hj : j = id
      · simp [hj]
      · simp [hj]; exact h.pend j e s
    · intro j
      simp only [hfil, List.mem_filter, upd]
      by_cases hj : j = id
      · simp [hj]
      · have := h.recs j
        simp [hj]
        constructor
        · rintro ⟨m, ⟨hm, _⟩, rfl⟩; exact this.1 ⟨m, hm, rfl⟩
        · intro hx
          obtain ⟨m, hm, he⟩ := this.2 hx
          exact ⟨m, ⟨hm, by rw [he]; exact hj⟩, he⟩
    · intro j hj
      simp only [upd]
      split
      · rename_i hji; rw [hji] at hj
        have := h.fresh id hj
        rw [hr] at this; simp at this
      · exact h.fresh j hj

theorem link_inv {q : Q} {P} (h : Inv q P) {id interval e : Nat} (hid : id < q.nextId)
    (hno : ∀ n ∈ q.base.chain, n.id ≠ id) :
    ∃ q', q.link id interval e = .ok q' ∧ Inv q' (updP P id (some (e, q.hist.length))) ∧
      q'.hist = .sched id e :: q.hist ∧ SameRest q q' ∧
      q'.recs = upd q.recs id (some ⟨interval, true⟩) ∧
      (∀ n, n ∈ q'.base.chain ↔ n = ⟨id, e, q.hist.length⟩ ∨ n ∈ q.base.chain) := by
  obtain ⟨b', a, c, h1, h2, h3, h4, h5, h6⟩ := insert_rep h.rep ⟨id, e, q.hist.length⟩
    (by simpa using hno)
  have hmem : ∀ n, n ∈ b'.chain ↔ n = ⟨id, e, q.hist.length⟩ ∨ n ∈ q.base.chain := by
    intro n; rw [h2, h3]; simp; grind
  refine ⟨⟨b', upd q.recs id (some ⟨interval, true⟩), q.nextId, q.clock, q.loopNow,
    .sched id e :: q.hist⟩, by simp [Q.link, h1], ⟨h6, ?_, ?_, ?_, ?_, ?_⟩, rfl, ⟨rfl, rfl, rfl⟩,
    rfl, hmem⟩
  · have ho := h.order
    have hs := h.seqlt
    rw [h2] at ho hs
    simp only [h3]
    rw [List.pairwise_append] at ho ⊢
    refine ⟨ho.1, ?_, ?_⟩
    · rw [List.pairwise_cons]
      refine ⟨?_, ho.2.1⟩
      intro y hy
      left; exact h5 y hy
    · intro x hx y hy
      simp at hy
      rcases hy with rfl | hy
      · have e1 := h4 x hx
        have e2 := hs x (by simp [hx])
        simp only [Before] at e1 e2 ⊢
        omega
      · exact ho.2.2 x hx y hy
  · intro n hn
    rw [hmem] at hn
    simp
    rcases hn with rfl | hn
    · simp
    · have := h.seqlt n hn; omega
  · intro j e' s
    rw [hmem]
    unfold updP
    by_cases hj : j = id
    · subst hj
      have hx : (⟨j, e', s⟩ : Node) ∉ q.base.chain := fun hm => hno _ hm rfl
      simp [hx, eq_comm]
    · simp [hj]; exact h.pend j e' s
  · intro j
    simp only [hmem, upd]
    by_cases hj : j = id
    · subst hj; simp
    · have := h.recs j
      simp [hj]
      rw [← this]
      constructor
      · rintro (rfl | ⟨m, hm, rfl⟩)
        · simp at hj
        · exact ⟨m, hm, rfl⟩
      · exact Or.inr
  · intro j hj
    simp only [upd]
    split
    · rename_i hji; simp only at hj; omega
    · exact h.fresh j hj

/-! ## What each command does, without the timer base -/

/-- The interval of a live timer. -/
def Q.iv (q : Q) (j : Nat) : Option Nat := (q.recs j).map (·.interval)

/-- New events `evs`, new intervals `f`, all else kept. -/
structure Upd (q q' : Q) (evs : List Ev) (f : Nat → Option Nat) : Prop where
  hist : q'.hist = evs ++ q.hist
  iv : ∀ j, q'.iv j = f j
  clock : q'.clock = q.clock
  loop : q'.loopNow = q.loopNow

def updI (f : Nat → Option Nat) (i : Nat) (v : Option Nat) : Nat → Option Nat :=
  fun j => if j = i then v else f j

/-- The effect of the API calls. -/
inductive AEff (q : Q) : Api → Q → Prop where
  | refuse {a} : AEff q a q
  | create {interval q'} : interval < two63 → q'.nextId = q.nextId + 1 →
      Upd q q' [] (updI q.iv q.nextId (some interval)) → AEff q (.create interval) q'
  | createOneshot {q'} : q'.nextId = q.nextId + 1 →
      Upd q q' [] (updI q.iv q.nextId (some invalidInterval)) → AEff q .createOneshot q'
  | set {interval q'} : interval < two63 → q'.nextId = q.nextId + 1 →
      Upd q q' [.sched q.nextId ((q.clock + interval) % two64)]
        (updI q.iv q.nextId (some interval)) → AEff q (.set interval) q'
  | setOneshot {expire q'} : expire ≠ 0 → q'.nextId = q.nextId + 1 →
      Upd q q' [.sched q.nextId expire] (updI q.iv q.nextId (some invalidInterval)) →
      AEff q (.setOneshot expire) q'
  | setOneshotOnQ {expire q'} : q'.nextId = q.nextId + 1 →
      Upd q q' [.sched q.nextId (if expire = 0 then two64 - 1 else expire)]
        (updI q.iv q.nextId (some invalidInterval)) → AEff q (.setOneshotOnQ expire) q'
  | resched {id interval i q'} : q.iv id ≠ none → i < two63 → q'.nextId = q.nextId →
      Upd q q' [.sched id ((q.clock + i) % two64)] (updI q.iv id (some i)) →
      i = (if two63 ≤ interval then (q.iv id).getD 0 else interval) →
      AEff q (.resched id interval) q'
  | reschedOneshot {id expire q'} : q.iv id ≠ none → expire ≠ 0 → q'.nextId = q.nextId →
      Upd q q' [.sched id expire] (updI q.iv id (some invalidInterval)) →
      AEff q (.reschedOneshot id expire) q'
  | cancel {id q'} : q.iv id ≠ none → q'.nextId = q.nextId → Upd q q' [.cancel id] q.iv →
      AEff q (.cancel id) q'
  | kill {id q'} : q.iv id ≠ none → q'.nextId = q.nextId →
      Upd q q' [.kill id] (updI q.iv id none) → AEff q (.kill id) q'

/-- The effect of a command. -/
inductive Eff (q : Q) : Cmd → Q → Prop where
  | tick {t} : q.clock ≤ t → t < two64 → Eff q (.tick t) { q with clock := t }
  | api {a q'} : AEff q a q' → Eff q (.api a) q'
  | enter : q.loopNow = none → Eff q .enter { q with loopNow := some q.clock }
  | leave {now} : q.loopNow = some now →
      (∀ j e s, pending q.hist j = some (e, s) →
        (∀ j' e' s', pending q.hist j' = some (e', s') → e ≤ e') → due now e = false) →
      Eff q .leave { q with loopNow := none }
  | oneshot {now id e s q'} : q.loopNow = some now → pending q.hist id = some (e, s) →
      due now e = true →
      (∀ j e' s', pending q.hist j = some (e', s') → e < e' ∨ (e = e' ∧ s ≤ s')) →
      q.iv id = some invalidInterval → q'.nextId = q.nextId →
      Upd q q' [.fire id e now] q.iv → Eff q .fire q'
  | periodic {now id e s i q'} : q.loopNow = some now → pending q.hist id = some (e, s) →
      due now e = true →
      (∀ j e' s', pending q.hist j = some (e', s') → e < e' ∨ (e = e' ∧ s ≤ s')) →
      q.iv id = some i → i ≠ invalidInterval → q'.nextId = q.nextId →
      Upd q q' [.sched id (sub64 ((q.clock + i) % two64) (sub64 now e)), .fire id e now] q.iv →
      Eff q .fire q'

def Wf (q : Q) : Prop := Inv q (pending q.hist)

theorem Inv.congr {q : Q} {P P'} (h : Inv q P) (he : ∀ j, P j = P' j) : Inv q P' := by
  have : P = P' := funext he
  subst this; exact h

theorem create_inv {q : Q} (h : Wf q) (i : Nat) : Wf (q.create i) ∧
    (q.create i).recs q.nextId = some ⟨i, false⟩ ∧ Upd q (q.create i) [] (updI q.iv q.nextId (some i)) := by
  refine ⟨⟨h.rep, h.order, h.seqlt, h.pend, ?_, ?_⟩, by simp [Q.create, upd], ?_⟩
  · intro j
    rw [show (q.create i).base = q.base from rfl, h.recs j]
    simp only [Q.create, upd]
    split
    · rename_i hj; subst hj
      have := h.fresh q.nextId (Nat.le_refl _)
      simp [this]
    · rfl
  · intro j hj
    simp only [Q.create, upd] at hj ⊢
    split
    · omega
    · exact h.fresh j (by omega)
  · refine ⟨rfl, ?_, rfl, rfl⟩
    intro j; simp only [Q.create, Q.iv, upd, updI]
    split <;> simp

theorem unlinked_not_mem {q : Q} {P} (h : Inv q P) {id : Nat} {r : Rec} (hr : q.recs id = some r)
    (hl : r.linked = false) : ∀ n ∈ q.base.chain, n.id ≠ id := by
  intro n hn hid
  obtain ⟨r', h1, h2⟩ := (h.recs id).1 ⟨n, hn, hid⟩
  rw [hr] at h1; simp at h1; subst h1; rw [hl] at h2; simp at h2

theorem known_lt {q : Q} {P} (h : Inv q P) {id : Nat} {r : Rec} (hr : q.recs id = some r) :
    id < q.nextId := by
  rcases Nat.lt_or_ge id q.nextId with h1 | h1
  · exact h1
  · have := h.fresh id h1
    rw [hr] at this; simp at this

/-- `__sched_timer` on an unlinked timer. -/
theorem sched_inv {q : Q} {P} (h : Inv q P) {id expire : Nat} {r : Rec}
    (hr : q.recs id = some r) (hl : r.linked = false) :
    ∃ q' e i, q.sched id expire = .ok q' ∧ Inv q' (updP P id (some (e, q.hist.length))) ∧
      q'.hist = .sched id e :: q.hist ∧ SameRest q q' ∧ q'.recs = upd q.recs id (some ⟨i, true⟩) ∧
      (e, i) = (if expire ≠ 0 then (expire, invalidInterval)
        else if r.interval ≠ invalidInterval then ((q.clock + r.interval) % two64, r.interval)
        else (two64 - 1, r.interval)) := by
  have hno := unlinked_not_mem h hr hl
  have hlt := known_lt h hr
  unfold Q.sched
  simp only [hr]
  by_cases he : expire ≠ 0
  · obtain ⟨q', h1, h2, h3, h4, h5, _⟩ := link_inv (interval := invalidInterval) (e := expire) h hlt hno
    refine ⟨q', expire, invalidInterval, ?_, h2, h3, h4, h5, ?_⟩
    · rw [if_pos he]; exact h1
    · rw [if_pos he]
  · by_cases hi : r.interval ≠ invalidInterval
    · obtain ⟨q', h1, h2, h3, h4, h5, _⟩ :=
        link_inv (interval := r.interval) (e := (q.clock + r.interval) % two64) h hlt hno
      refine ⟨q', _, r.interval, ?_, h2, h3, h4, h5, ?_⟩
      · rw [if_neg he, if_pos hi]; exact h1
      · rw [if_neg he, if_pos hi]
    · obtain ⟨q', h1, h2, h3, h4, h5, _⟩ :=
        link_inv (interval := r.interval) (e := two64 - 1) h hlt hno
      refine ⟨q', _, r.interval, ?_, h2, h3, h4, h5, ?_⟩
      · rw [if_neg he, if_neg hi]; exact h1
      · rw [if_neg he, if_neg hi]

theorem iv_upd {q q' : Q} {id : Nat} {r : Option Rec} (h : q'.recs = upd q.recs id r) (j : Nat) :
    q'.iv j = updI q.iv id (r.map (·.interval)) j := by
  unfold Q.iv; rw [h]; unfold upd updI; split <;> rfl

/-- `__resched_timer`. -/
theorem resched_inv {q : Q} (h : Wf q) {id interval expire : Nat} {r : Rec}
    (hr : q.recs id = some r) :
    ∃ q' e i, q.resched id interval expire = .ok q' ∧ Wf q' ∧ q'.nextId = q.nextId ∧
      Upd q q' [.sched id e] (updI q.iv id (some i)) ∧
      (e, i) = (if expire ≠ 0 then (expire, invalidInterval)
        else
          let i := if interval ≠ invalidInterval then interval else r.interval
          if i ≠ invalidInterval then ((q.clock + i) % two64, i) else (two64 - 1, i)) := by
  obtain ⟨q1, h1, h2, h3, h4, h5, h6⟩ := unlinkIf_inv h hr
  unfold Q.resched
  rw [h1]
  simp only [Res.bind]
  have hr1 : q1.recs id = some ⟨r.interval, false⟩ := by rw [h5]; simp [upd]
  -- the state after the optional store of the interval
  obtain ⟨q2, hq2, hi2, hh2, hsr2, hrec2⟩ :
      ∃ q2, (if expire = 0 ∧ interval ≠ invalidInterval then q1.setInterval id interval else .ok q1)
          = .ok q2 ∧ Inv q2 (updP (pending q.hist) id none) ∧ q2.hist = q1.hist ∧ SameRest q1 q2 ∧
        q2.recs = upd q.recs id (some ⟨if expire = 0 ∧ interval ≠ invalidInterval then interval
          else r.interval, false⟩) := by
    by_cases hc : expire = 0 ∧ interval ≠ invalidInterval
    · refine ⟨{ q1 with recs := upd q1.recs id (some ⟨interval, false⟩) }, ?_, ?_, rfl, ⟨rfl, rfl, rfl⟩, ?_⟩
      · rw [if_pos hc]; simp [Q.setInterval, hr1]
      · refine ⟨h2.rep, h2.order, h2.seqlt, h2.pend, ?_, ?_⟩
        · intro j
          rw [show (∃ n, n ∈ q1.base.chain ∧ n.id = j) ↔ _ from h2.recs j]
          simp only [upd]
          split
          · rename_i hj; subst hj; simp [hr1]
          · rfl
        · intro j hj
          simp only [upd]
          split
          · rename_i hji; subst hji
            have := h2.fresh j hj
            rw [hr1] at this; simp at this
          · exact h2.fresh j hj
      · rw [if_pos hc]; simp only [h5]
        funext j; unfold upd; split <;> rfl
    · exact ⟨q1, by rw [if_neg hc], h2, rfl, ⟨rfl, rfl, rfl⟩, by rw [if_neg hc]; exact h5⟩
  rw [hq2]
  simp only [Res.bind]
  have hr2 : q2.recs id = some ⟨if expire = 0 ∧ interval ≠ invalidInterval then interval
          else r.interval, false⟩ := by rw [hrec2]; simp [upd]
  obtain ⟨q', e, i, s1, s2, s3, s4, s5, s6⟩ := sched_inv (expire := expire) hi2 hr2 rfl
  refine ⟨q', e, i, s1, ?_, ?_, ⟨?_, ?_, ?_, ?_⟩, ?_⟩
  · apply Inv.congr s2
    intro j
    rw [s3, hh2, h3]
    simp only [updP, pending]
    split <;> rfl
  · rw [s4.1, hsr2.1, h4.1]
  · rw [s3, hh2, h3]; rfl
  · intro j
    rw [iv_upd s5]
    unfold updI Q.iv
    rw [hrec2]
    unfold upd
    split <;> rfl
  · rw [s4.2.1, hsr2.2.1, h4.2.1]
  · rw [s4.2.2, hsr2.2.2, h4.2.2]
  · rw [s6]
    have hcl : q2.clock = q.clock := by rw [hsr2.2.1, h4.2.1]
    rw [hcl]
    by_cases he : expire ≠ 0
    · rw [if_pos he, if_pos he]
    · have he' : expire = 0 := by omega
      rw [if_neg he, if_neg he]
      simp [he']

theorem set_inv {q : Q} (h : Wf q) (i expire : Nat) :
    ∃ q' e i', (q.create i).sched q.nextId expire = .ok q' ∧ Wf q' ∧ q'.nextId = q.nextId + 1 ∧
      Upd q q' [.sched q.nextId e] (updI q.iv q.nextId (some i')) ∧
      (e, i') = (if expire ≠ 0 then (expire, invalidInterval)
        else if i ≠ invalidInterval then ((q.clock + i) % two64, i) else (two64 - 1, i)) := by
  obtain ⟨h1, h2, h3⟩ := create_inv h i
  obtain ⟨q', e, i', s1, s2, s3, s4, s5, s6⟩ := sched_inv (expire := expire) h1 h2 rfl
  refine ⟨q', e, i', s1, ?_, s4.1, ⟨?_, ?_, s4.2.1, s4.2.2⟩, s6⟩
  · apply Inv.congr s2
    intro j
    rw [s3]
    simp only [updP, pending]
  · rw [s3]; rfl
  · intro j
    rw [iv_upd s5]
    unfold updI
    split
    · rfl
    · rename_i hj; rw [h3.iv j]; simp [updI, hj]

theorem iv_some {q : Q} {id : Nat} {r : Rec} (h : q.recs id = some r) : q.iv id = some r.interval := by
  simp [Q.iv, h]

/-- Every API call succeeds in a well-formed state and has the effect listed. -/
theorem api_spec {q : Q} (h : Wf q) (a : Api) : ∃ q', q.api a = .ok q' ∧ Wf q' ∧ AEff q a q' := by
  cases a with
  | create i =>
    simp only [Q.api, negInterval]
    by_cases hi : two63 ≤ i
    · simp only [hi, decide_true, if_true]; exact ⟨q, rfl, h, .refuse⟩
    · simp only [hi, decide_false]
      obtain ⟨h1, h2, h3⟩ := create_inv h i
      exact ⟨_, rfl, h1, .create (by omega) rfl h3⟩
  | createOneshot =>
    obtain ⟨h1, h2, h3⟩ := create_inv h invalidInterval
    exact ⟨_, rfl, h1, .createOneshot rfl h3⟩
  | set i =>
    simp only [Q.api, negInterval]
    by_cases hi : two63 ≤ i
    · simp only [hi, decide_true, if_true]; exact ⟨q, rfl, h, .refuse⟩
    · simp only [hi, decide_false]
      obtain ⟨q', e, i', h1, h2, h3, h4, h5⟩ := set_inv h i 0
      have hne : i ≠ invalidInterval := by simp only [invalidInterval, two63] at *; omega
      simp [hne] at h5
      obtain ⟨rfl, rfl⟩ := h5
      exact ⟨q', h1, h2, .set (by omega) h3 h4⟩
  | setOneshot e =>
    simp only [Q.api]
    by_cases he : e = 0
    · rw [if_pos he]; exact ⟨q, rfl, h, .refuse⟩
    · rw [if_neg he]
      obtain ⟨q', e', i', h1, h2, h3, h4, h5⟩ := set_inv h invalidInterval e
      rw [if_pos he] at h5
      simp only [Prod.mk.injEq] at h5
      obtain ⟨rfl, rfl⟩ := h5
      exact ⟨q', h1, h2, .setOneshot he h3 h4⟩
  | setOneshotOnQ e =>
    simp only [Q.api]
    obtain ⟨q', e', i', h1, h2, h3, h4, h5⟩ := set_inv h invalidInterval e
    refine ⟨q', h1, h2, .setOneshotOnQ h3 ?_⟩
    by_cases he : e = 0
    · subst he
      simp at h5
      obtain ⟨rfl, rfl⟩ := h5
      exact h4
    · rw [if_pos he] at h5
      simp only [Prod.mk.injEq] at h5
      obtain ⟨rfl, rfl⟩ := h5
      rw [if_neg he]; exact h4
  | resched id i =>
    simp only [Q.api]
    cases hr : q.recs id with
    | none => exact ⟨q, rfl, h, .refuse⟩
    | some r =>
      have hiv := iv_some hr
      simp only [negInterval]
      by_cases hi : two63 ≤ i
      · simp only [hi, decide_true, if_true]
        by_cases hri : two63 ≤ r.interval
        · simp only [hri, decide_true, if_true]; exact ⟨q, rfl, h, .refuse⟩
        · simp only [hri, decide_false]
          obtain ⟨q', e, i', h1, h2, h3, h4, h5⟩ := resched_inv (interval := r.interval) (expire := 0) h hr
          have hne : r.interval ≠ invalidInterval := by simp only [invalidInterval, two63] at *; omega
          simp [hne] at h5
          obtain ⟨rfl, rfl⟩ := h5
          exact ⟨q', h1, h2, .resched (by simp [hiv]) (by omega) h3 h4 (by simp [hi, hiv])⟩
      · simp only [hi, decide_false]
        obtain ⟨q', e, i', h1, h2, h3, h4, h5⟩ := resched_inv (interval := i) (expire := 0) h hr
        have hne : i ≠ invalidInterval := by simp only [invalidInterval, two63] at *; omega
        simp [hne] at h5
        obtain ⟨rfl, rfl⟩ := h5
        exact ⟨q', h1, h2, .resched (by simp [hiv]) (by omega) h3 h4 (by rw [if_neg hi])⟩
  | reschedOneshot id e =>
    simp only [Q.api]
    by_cases he : e = 0
    · rw [if_pos he]; exact ⟨q, rfl, h, .refuse⟩
    · rw [if_neg he]
      cases hr : q.recs id with
      | none => exact ⟨q, rfl, h, .refuse⟩
      | some r =>
        obtain ⟨q', e', i', h1, h2, h3, h4, h5⟩ :=
          resched_inv (interval := invalidInterval) (expire := e) h hr
        rw [if_pos he] at h5
        simp only [Prod.mk.injEq] at h5
        obtain ⟨rfl, rfl⟩ := h5
        exact ⟨q', h1, h2, .reschedOneshot (by simp [iv_some hr]) he h3 h4⟩
  | cancel id =>
    simp only [Q.api]
    cases hr : q.recs id with
    | none => exact ⟨q, rfl, h, .refuse⟩
    | some r =>
      obtain ⟨q1, h1, h2, h3, h4, h5, h6⟩ := unlinkIf_inv h hr
      rw [h1]
      refine ⟨_, rfl, ?_, .cancel (by simp [iv_some hr]) h4.1 ⟨?_, ?_, h4.2.1, h4.2.2⟩⟩
      · refine Inv.congr (P := updP (pending q.hist) id none)
          ⟨h2.rep, h2.order, ?_, h2.pend, h2.recs, h2.fresh⟩ ?_
        · intro n hn; have := h2.seqlt n hn; simp; omega
        · intro j; simp [updP, pending, h3]
      · simp [h3]
      · intro j
        have : ({ q1 with hist := .cancel id :: q1.hist } : Q).recs = upd q.recs id (some ⟨r.interval, false⟩) := h5
        rw [iv_upd this]; unfold updI
        split
        · rename_i hj; subst hj; simp [iv_some hr]
        · rfl
  | kill id =>
    simp only [Q.api]
    cases hr : q.recs id with
    | none => exact ⟨q, rfl, h, .refuse⟩
    | some r =>
      obtain ⟨q1, h1, h2, h3, h4, h5, h6⟩ := unlinkIf_inv h hr
      simp only [Q.killTimer, h1, Res.bind]
      have hu : upd q1.recs id none = upd q.recs id none := by
        rw [h5]; funext j; unfold upd; split <;> rfl
      refine ⟨_, rfl, ?_, .kill (by simp [iv_some hr]) h4.1 ⟨?_, ?_, h4.2.1, h4.2.2⟩⟩
      · refine Inv.congr (P := updP (pending q.hist) id none)
          ⟨h2.rep, h2.order, ?_, h2.pend, ?_, ?_⟩ ?_
        · intro n hn; have := h2.seqlt n hn; simp; omega
        · intro j
          rw [show (∃ n, n ∈ q1.base.chain ∧ n.id = j) ↔ _ from h2.recs j]
          simp only [upd]
          split
          · rename_i hj; subst hj
            simp [h5, upd]
          · rfl
        · intro j hj
          simp only [upd]
          split
          · rfl
          · exact h2.fresh j hj
        · intro j; simp [updP, pending, h3]
      · simp [h3]
      · intro j
        exact iv_upd (r := none) hu j

theorem order_head {n : Node} {c : List Node} (h : (n :: c).Pairwise Before) {m : Node}
    (hm : m ∈ n :: c) : n.expire < m.expire ∨ (n.expire = m.expire ∧ n.seq ≤ m.seq) := by
  rw [List.pairwise_cons] at h
  simp at hm
  rcases hm with rfl | hm
  · right; exact ⟨rfl, Nat.le_refl _⟩
  · rcases h.1 m hm with h | h
    · left; exact h
    · right; omega

/-- Every command either is impossible or succeeds with the effect listed; none is undefined
    behaviour. -/
theorem exec_spec {q : Q} (h : Wf q) (c : Cmd) :
    q.exec c = .no ∨ ∃ q', q.exec c = .ok q' ∧ Wf q' ∧ Eff q c q' := by
  cases c with
  | tick t =>
    simp only [Q.exec]
    by_cases ht : q.clock ≤ t ∧ t < two64
    · rw [if_pos ht]
      exact Or.inr ⟨_, rfl, ⟨h.rep, h.order, h.seqlt, h.pend, h.recs, h.fresh⟩, .tick ht.1 ht.2⟩
    · rw [if_neg ht]; exact Or.inl rfl
  | api a =>
    obtain ⟨q', h1, h2, h3⟩ := api_spec h a
    exact Or.inr ⟨q', h1, h2, .api h3⟩
  | enter =>
    simp only [Q.exec]
    cases hl : q.loopNow with
    | none =>
      exact Or.inr ⟨_, rfl, ⟨h.rep, h.order, h.seqlt, h.pend, h.recs, h.fresh⟩, .enter hl⟩
    | some _ => exact Or.inl rfl
  | leave =>
    simp only [Q.exec]
    cases hl : q.loopNow with
    | none => exact Or.inl rfl
    | some now =>
      simp only
      cases hc : q.base.chain with
      | nil =>
        refine Or.inr ⟨_, rfl, ⟨h.rep, h.order, h.seqlt, h.pend, h.recs, h.fresh⟩, .leave hl ?_⟩
        intro j e s hj
        rw [h.pend, hc] at hj
        simp at hj
      | cons n ch =>
        simp only
        cases hd : due now n.expire with
        | true => simp
        | false =>
          simp only [Bool.false_eq_true, if_false]
          refine Or.inr ⟨_, rfl, ⟨h.rep, h.order, h.seqlt, h.pend, h.recs, h.fresh⟩, .leave hl ?_⟩
          intro j e s hj hmin
          rw [h.pend] at hj
          have ho := h.order
          rw [hc] at ho hj
          have h1 := order_head ho hj
          have h2 := hmin n.id n.expire n.seq (by rw [h.pend, hc]; simp)
          have h3 : e = n.expire := by simp only at h1; omega
          rw [h3]; exact hd
  | fire =>
    simp only [Q.exec, Q.fire]
    cases hl : q.loopNow with
    | none => exact Or.inl rfl
    | some now =>
      simp only
      cases hc : q.base.chain with
      | nil => exact Or.inl rfl
      | cons n ch =>
        simp only
        cases hd : due now n.expire with
        | false => simp
        | true =>
          simp only [if_true]
          right
          have hp : pending q.hist n.id = some (n.expire, n.seq) := by
            rw [h.pend, hc]; simp
          have hmin : ∀ j e' s', pending q.hist j = some (e', s') →
              n.expire < e' ∨ (n.expire = e' ∧ n.seq ≤ s') := by
            intro j e' s' hj
            rw [h.pend, hc] at hj
            have ho := h.order
            rw [hc] at ho
            exact order_head ho hj
          obtain ⟨r, hr, hlk⟩ := (h.recs n.id).1 ⟨n, by rw [hc]; simp, rfl⟩
          obtain ⟨q1, h1, h2, h3, h4, h5, h6⟩ := unlinkIf_inv h hr
          rw [h1]
          simp only [Res.bind]
          have hr1 : q1.recs n.id = some ⟨r.interval, false⟩ := by rw [h5]; simp [upd]
          simp only [hr1]
          -- the state after logging the invocation
          have hw : Wf { q1 with hist := .fire n.id n.expire now :: q1.hist } := by
            refine Inv.congr (P := updP (pending q.hist) n.id none)
              ⟨h2.rep, h2.order, ?_, h2.pend, h2.recs, h2.fresh⟩ ?_
            · intro m hm; have := h2.seqlt m hm; simp; omega
            · intro j; simp [updP, pending, h3]
          by_cases hi : r.interval ≠ invalidInterval
          · rw [if_pos hi]
            have hno : ∀ m ∈ q1.base.chain, m.id ≠ n.id := unlinked_not_mem h2 hr1 rfl
            obtain ⟨q', l1, l2, l3, l4, l5, _⟩ := link_inv (interval := r.interval)
              (e := sub64 ((q.clock + r.interval) % two64) (sub64 now n.expire)) hw
              (by show n.id < q1.nextId; exact known_lt h2 hr1) hno
            refine ⟨q', l1, ?_, .periodic hl hp hd hmin (iv_some hr) hi ?_ ⟨?_, ?_, ?_, ?_⟩⟩
            · apply Inv.congr l2
              intro j; rw [l3]; simp [updP, pending]
            · rw [l4.1]; exact h4.1
            · rw [l3]; simp [h3]
            · intro j
              rw [iv_upd l5]
              unfold updI
              split
              · rename_i hj; subst hj; exact (iv_some hr).symm
              · rename_i hj
                show q1.iv j = q.iv j
                rw [iv_upd h5]; simp [updI, hj]
            · rw [l4.2.1]; exact h4.2.1
            · rw [l4.2.2]; exact h4.2.2
          · rw [if_neg hi]
            have hi' : r.interval = invalidInterval := Classical.not_not.1 hi
            refine ⟨_, rfl, hw, .oneshot hl hp hd hmin (by rw [iv_some hr, hi']) h4.1
              ⟨?_, ?_, h4.2.1, h4.2.2⟩⟩
            · simp [h3]
            · intro j
              show q1.iv j = q.iv j
              rw [iv_upd h5]; unfold updI
              split
              · rename_i hj; subst hj; exact (iv_some hr).symm
              · rfl

/-! ## Runs -/

theorem wf_init (t : Nat) : Wf (Q.init t) := inv_init t

theorem run_wf {q : Q} (h : Wf q) (cmds : List Cmd) :
    q.run cmds = .no ∨ ∃ q', q.run cmds = .ok q' ∧ Wf q' := by
  induction cmds generalizing q with
  | nil => exact Or.inr ⟨q, rfl, h⟩
  | cons c cs ih =>
    simp only [Q.run]
    rcases exec_spec h c with h1 | ⟨q', h1, h2, _⟩
    · left; rw [h1]; rfl
    · rw [h1]; exact ih h2

/-- States reachable from a fresh queue. -/
def Reach (q : Q) : Prop := ∃ t cmds, (Q.init t).run cmds = .ok q

theorem reach_wf {q : Q} (h : Reach q) : Wf q := by
  obtain ⟨t, cmds, h⟩ := h
  rcases run_wf (wf_init t) cmds with h1 | ⟨q', h1, h2⟩
  · rw [h] at h1; simp at h1
  · rw [h] at h1; simp at h1; subst h1; exact h2

/-- Induction over the steps of a run from a well-formed state. -/
theorem run_induct {q : Q} (h : Wf q) {I : Q → List Cmd → Prop} {cmds : List Cmd} {q' : Q}
    (hrun : q.run cmds = .ok q') (h0 : I q cmds)
    (hstep : ∀ q1 c q2 cs, Wf q1 → Wf q2 → Eff q1 c q2 → q1.exec c = .ok q2 → I q1 (c :: cs) → I q2 cs) :
    I q' [] := by
  induction cmds generalizing q with
  | nil => simp [Q.run] at hrun; subst hrun; exact h0
  | cons c cs ih =>
    simp only [Q.run] at hrun
    rcases exec_spec h c with h1 | ⟨q1, h1, h2, h3⟩
    · rw [h1] at hrun; simp [Res.bind] at hrun
    · rw [h1] at hrun
      exact ih h2 hrun (hstep q c q1 cs h h2 h3 h1 h0)

theorem reach_induct {I : Q → Prop} {q : Q} (h : Reach q) (h0 : ∀ t, I (Q.init t))
    (hstep : ∀ q1 c q2, Wf q1 → Eff q1 c q2 → I q1 → I q2) : I q := by
  obtain ⟨t, cmds, hr⟩ := h
  exact run_induct (I := fun q _ => I q) (wf_init t) hr (h0 t)
    (fun q1 c q2 cs hw _ he _ hi => hstep q1 c q2 hw he hi)

/-- The events a command adds. -/
theorem eff_hist {q q' : Q} {c : Cmd} (h : Eff q c q') :
    q'.hist = q.hist ∨ (∃ i e, q'.hist = .sched i e :: q.hist) ∨ (∃ i, q'.hist = .cancel i :: q.hist) ∨
    (∃ i, q'.hist = .kill i :: q.hist) ∨
    ∃ now id e s, q.loopNow = some now ∧ pending q.hist id = some (e, s) ∧ due now e = true ∧
      (∀ j e' s', pending q.hist j = some (e', s') → e < e' ∨ (e = e' ∧ s ≤ s')) ∧
      (q'.hist = .fire id e now :: q.hist ∨
        ∃ e', q'.hist = .sched id e' :: .fire id e now :: q.hist) := by
  cases h with
  | tick => left; rfl
  | enter => left; rfl
  | leave => left; rfl
  | oneshot h1 h2 h3 h4 _ _ h5 =>
    exact Or.inr (Or.inr (Or.inr (Or.inr ⟨_, _, _, _, h1, h2, h3, h4, Or.inl h5.hist⟩)))
  | periodic h1 h2 h3 h4 _ _ _ h5 =>
    exact Or.inr (Or.inr (Or.inr (Or.inr ⟨_, _, _, _, h1, h2, h3, h4, Or.inr ⟨_, h5.hist⟩⟩)))
  | api ha =>
    cases ha with
    | refuse => left; rfl
    | create _ _ h => left; exact h.hist
    | createOneshot _ h => left; exact h.hist
    | set _ _ h => exact Or.inr (Or.inl ⟨_, _, h.hist⟩)
    | setOneshot _ _ h => exact Or.inr (Or.inl ⟨_, _, h.hist⟩)
    | setOneshotOnQ _ h => exact Or.inr (Or.inl ⟨_, _, h.hist⟩)
    | resched _ _ _ h _ => exact Or.inr (Or.inl ⟨_, _, h.hist⟩)
    | reschedOneshot _ _ _ h => exact Or.inr (Or.inl ⟨_, _, h.hist⟩)
    | cancel _ _ h => exact Or.inr (Or.inr (Or.inl ⟨_, h.hist⟩))
    | kill _ _ h => exact Or.inr (Or.inr (Or.inr (Or.inl ⟨_, h.hist⟩)))

theorem due_iff (now e : Nat) : due now e = true → e ≤ now ∨ now + two63 ≤ e := by
  intro h
  have h1 := of_decide_eq_true h
  unfold sub64 at h1
  simp only [two63, two64] at *
  omega

/-! ## C28, C29: order and punctuality of the invocations -/

/-- No command sequence leads to undefined behaviour in the timer base (a NULL dereference in the
    tree, a killed timer being touched): stated for C28. -/
theorem C28_no_ub (t : Nat) (cmds : List Cmd) : (Q.init t).run cmds ≠ .ub := by
  rcases run_wf (wf_init t) cmds with h | ⟨q', h, _⟩ <;> rw [h] <;> simp

/-- C28. In every history, each invocation is of a pending timer, and of all timers pending at that
    moment it is the one with the smallest expiry, among equal ones the one scheduled first. -/
theorem C28_order {q : Q} (h : Reach q) (later earlier : List Ev) (id e now : Nat)
    (hsplit : q.hist = later ++ .fire id e now :: earlier) :
    ∃ s, pending earlier id = some (e, s) ∧
      ∀ j e' s', pending earlier j = some (e', s') → e < e' ∨ (e = e' ∧ s ≤ s') := by
  revert later earlier id e now
  apply reach_induct (I := fun q => ∀ later earlier id e now,
    q.hist = later ++ .fire id e now :: earlier → ∃ s, pending earlier id = some (e, s) ∧
      ∀ j e' s', pending earlier j = some (e', s') → e < e' ∨ (e = e' ∧ s ≤ s')) h
  · intro t later earlier id e now hs
    simp [Q.init] at hs
  · intro q1 c q2 hw he ih later earlier id e now hs
    rcases eff_hist he with h1 | ⟨i, e1, h1⟩ | ⟨i, h1⟩ | ⟨i, h1⟩ | ⟨now1, id1, e1, s1, _, h2, _, h4, h5⟩
    · exact ih later earlier id e now (by rw [← h1]; exact hs)
    all_goals try
      rw [h1] at hs
      cases later with
      | nil => simp at hs
      | cons x later => simp at hs; exact ih later earlier id e now hs.2
    rcases h5 with h5 | ⟨e2, h5⟩
    · rw [h5] at hs
      cases later with
      | nil =>
        simp at hs
        obtain ⟨⟨rfl, rfl, rfl⟩, rfl⟩ := hs
        exact ⟨s1, h2, h4⟩
      | cons x later => simp at hs; exact ih later earlier id e now hs.2
    · rw [h5] at hs
      cases later with
      | nil => simp at hs
      | cons x later =>
        cases later with
        | nil =>
          simp at hs
          obtain ⟨_, ⟨rfl, rfl, rfl⟩, rfl⟩ := hs
          exact ⟨s1, h2, h4⟩
        | cons y later => simp at hs; exact ih later earlier id e now hs.2.2

/-- The loop's local time is a past reading of the clock. -/
theorem loop_le_clock {q : Q} (h : Reach q) : ∀ now, q.loopNow = some now → now ≤ q.clock := by
  apply reach_induct (I := fun q => ∀ now, q.loopNow = some now → now ≤ q.clock) h
  · intro t now hn; simp [Q.init] at hn
  · intro q1 c q2 hw he ih now hn
    cases he with
    | tick h1 _ => have := ih now hn; simp; omega
    | enter => simp at hn; simp [hn]
    | leave => simp at hn
    | oneshot _ _ _ _ _ _ h5 => rw [h5.loop] at hn; rw [h5.clock]; exact ih now hn
    | periodic _ _ _ _ _ _ _ h5 => rw [h5.loop] at hn; rw [h5.clock]; exact ih now hn
    | api ha =>
      cases ha with
      | refuse => exact ih now hn
      | create _ _ h => rw [h.loop] at hn; rw [h.clock]; exact ih now hn
      | createOneshot _ h => rw [h.loop] at hn; rw [h.clock]; exact ih now hn
      | set _ _ h => rw [h.loop] at hn; rw [h.clock]; exact ih now hn
      | setOneshot _ _ h => rw [h.loop] at hn; rw [h.clock]; exact ih now hn
      | setOneshotOnQ _ h => rw [h.loop] at hn; rw [h.clock]; exact ih now hn
      | resched _ _ _ h _ => rw [h.loop] at hn; rw [h.clock]; exact ih now hn
      | reschedOneshot _ _ _ h => rw [h.loop] at hn; rw [h.clock]; exact ih now hn
      | cancel _ _ h => rw [h.loop] at hn; rw [h.clock]; exact ih now hn
      | kill _ _ h => rw [h.loop] at hn; rw [h.clock]; exact ih now hn

theorem exec_eff {q q' : Q} {c : Cmd} (h : Wf q) (hx : q.exec c = .ok q') : Wf q' ∧ Eff q c q' := by
  rcases exec_spec h c with h1 | ⟨q2, h1, h2, h3⟩
  · rw [hx] at h1; simp at h1
  · rw [hx] at h1; simp at h1; subst h1; exact ⟨h2, h3⟩

/-- C29. When a timer is invoked, the clock has reached the expiry it was last scheduled with - unless
    that expiry was 2^63 ms or more ahead. -/
theorem C29_not_early {q q' : Q} (h : Reach q) (hx : q.exec .fire = .ok q') :
    ∃ id e s now, pending q.hist id = some (e, s) ∧ .fire id e now ∈ q'.hist.take 2 ∧
      now ≤ q.clock ∧ (e ≤ now ∨ now + two63 ≤ e) := by
  have hw := reach_wf h
  obtain ⟨_, he⟩ := exec_eff hw hx
  cases he with
  | oneshot h1 h2 h3 h4 _ _ h5 =>
    refine ⟨_, _, _, _, h2, ?_, loop_le_clock h _ h1, due_iff _ _ h3⟩
    rw [h5.hist]; simp
  | periodic h1 h2 h3 h4 _ _ _ h5 =>
    refine ⟨_, _, _, _, h2, ?_, loop_le_clock h _ h1, due_iff _ _ h3⟩
    rw [h5.hist]; simp

/-- The same for every invocation in a history: the time handed to the callback is at or after the
    expiry. -/
theorem C29_history {q : Q} (h : Reach q) (id e now : Nat) (hm : .fire id e now ∈ q.hist) :
    e ≤ now ∨ now + two63 ≤ e := by
  revert id e now
  apply reach_induct (I := fun q => ∀ id e now, .fire id e now ∈ q.hist → e ≤ now ∨ now + two63 ≤ e) h
  · intro t id e now hm; simp [Q.init] at hm
  · intro q1 c q2 hw he ih id e now hm
    rcases eff_hist he with h1 | ⟨i, e1, h1⟩ | ⟨i, h1⟩ | ⟨i, h1⟩ | ⟨now1, id1, e1, s1, _, h2, h3, h4, h5⟩
    · rw [h1] at hm; exact ih id e now hm
    all_goals try
      rw [h1] at hm; simp at hm; exact ih id e now hm
    rcases h5 with h5 | ⟨e2, h5⟩
    · rw [h5] at hm; simp at hm
      rcases hm with ⟨rfl, rfl, rfl⟩ | hm
      · exact due_iff _ _ h3
      · exact ih id e now hm
    · rw [h5] at hm; simp at hm
      rcases hm with ⟨rfl, rfl, rfl⟩ | hm
      · exact due_iff _ _ h3
      · exact ih id e now hm

/-! ## C30, C32: how often a timer fires -/

/-- Number of invocations of timer `id` in a history. -/
def fires (id : Nat) (h : List Ev) : Nat :=
  h.countP fun e => match e with | .fire i _ _ => i == id | _ => false

/-- The command does not (re)schedule timer `id`. -/
def NoResched (id : Nat) (c : Cmd) : Prop :=
  (∀ i, c ≠ .api (.resched id i)) ∧ (∀ e, c ≠ .api (.reschedOneshot id e))

/-- The command does not name timer `id`. -/
def NotNamed (id : Nat) (c : Cmd) : Prop :=
  NoResched id c ∧ c ≠ .api (.cancel id) ∧ c ≠ .api (.kill id)

/-- Effect on a single known timer of a command that does not reschedule it. -/
theorem eff_one {q q' : Q} {c : Cmd} (hw : Wf q) (he : Eff q c q') {id : Nat} (hid : id < q.nextId)
    (hc : NoResched id c) :
    id < q'.nextId ∧
    ((pending q'.hist id = pending q.hist id ∧ fires id q'.hist = fires id q.hist ∧ q'.iv id = q.iv id) ∨
     (pending q'.hist id = none ∧ fires id q'.hist = fires id q.hist ∧ q'.iv id = q.iv id ∧
        c = .api (.cancel id)) ∨
     (pending q'.hist id = none ∧ fires id q'.hist = fires id q.hist ∧ q'.iv id = none ∧
        c = .api (.kill id)) ∨
     (∃ e s now, c = .fire ∧ q.loopNow = some now ∧ pending q.hist id = some (e, s) ∧ due now e = true ∧
        fires id q'.hist = fires id q.hist + 1 ∧ q'.iv id = q.iv id ∧
        ((q.iv id = some invalidInterval ∧ pending q'.hist id = none) ∨
          ∃ i s', q.iv id = some i ∧ i ≠ invalidInterval ∧ pending q'.hist id =
            some (sub64 ((q.clock + i) % two64) (sub64 now e), s')))) := by
  have hne : ∀ {a : Nat}, a = q.nextId → id ≠ a := by omega
  cases he with
  | tick => exact ⟨hid, Or.inl ⟨rfl, rfl, rfl⟩⟩
  | enter => exact ⟨hid, Or.inl ⟨rfl, rfl, rfl⟩⟩
  | leave => exact ⟨hid, Or.inl ⟨rfl, rfl, rfl⟩⟩
  | @oneshot now id1 e s _ h1 h2 h3 h4 hi hn h5 =>
    refine ⟨by rw [hn]; exact hid, ?_⟩
    by_cases heq : id = id1
    · subst heq
      right; right; right
      refine ⟨e, s, now, rfl, h1, h2, h3, ?_, h5.iv _, Or.inl ⟨hi, ?_⟩⟩
      · rw [h5.hist]; simp [fires]
      · rw [h5.hist]; simp [pending]
    · left
      have heq' : id1 ≠ id := fun h => heq h.symm
      refine ⟨?_, ?_, h5.iv _⟩
      · rw [h5.hist]; simp [pending, heq]
      · rw [h5.hist]; simp [fires, heq']
  | @periodic now id1 e s i _ h1 h2 h3 h4 hi hi' hn h5 =>
    refine ⟨by rw [hn]; exact hid, ?_⟩
    by_cases heq : id = id1
    · subst heq
      right; right; right
      refine ⟨e, s, now, rfl, h1, h2, h3, ?_, h5.iv _, Or.inr ⟨i, q.hist.length + 1, hi, hi', ?_⟩⟩
      · rw [h5.hist]; simp [fires]
      · rw [h5.hist]; simp [pending]
    · left
      have heq' : id1 ≠ id := fun h => heq h.symm
      refine ⟨?_, ?_, h5.iv _⟩
      · rw [h5.hist]; simp [pending, heq]
      · rw [h5.hist]; simp [fires, heq']
  | api ha =>
    have hnn : id ≠ q.nextId := by omega
    cases ha with
    | refuse => exact ⟨hid, Or.inl ⟨rfl, rfl, rfl⟩⟩
    | create _ hn h =>
      exact ⟨by omega, Or.inl ⟨by rw [h.hist]; rfl, by rw [h.hist]; rfl, by rw [h.iv]; simp [updI, hnn]⟩⟩
    | createOneshot hn h =>
      exact ⟨by omega, Or.inl ⟨by rw [h.hist]; rfl, by rw [h.hist]; rfl, by rw [h.iv]; simp [updI, hnn]⟩⟩
    | set _ hn h =>
      exact ⟨by omega, Or.inl ⟨by rw [h.hist]; simp [pending, hnn], by rw [h.hist]; simp [fires],
        by rw [h.iv]; simp [updI, hnn]⟩⟩
    | setOneshot _ hn h =>
      exact ⟨by omega, Or.inl ⟨by rw [h.hist]; simp [pending, hnn], by rw [h.hist]; simp [fires],
        by rw [h.iv]; simp [updI, hnn]⟩⟩
    | setOneshotOnQ hn h =>
      exact ⟨by omega, Or.inl ⟨by rw [h.hist]; simp [pending, hnn], by rw [h.hist]; simp [fires],
        by rw [h.iv]; simp [updI, hnn]⟩⟩
    | @resched id1 iv1 _ _ _ _ hn h _ =>
      have heq : id ≠ id1 := fun h' => hc.1 iv1 (by rw [h'])
      exact ⟨by omega, Or.inl ⟨by rw [h.hist]; simp [pending, heq], by rw [h.hist]; simp [fires],
        by rw [h.iv]; simp [updI, heq]⟩⟩
    | @reschedOneshot id1 e1 _ _ _ hn h =>
      have heq : id ≠ id1 := fun h' => hc.2 e1 (by rw [h'])
      exact ⟨by omega, Or.inl ⟨by rw [h.hist]; simp [pending, heq], by rw [h.hist]; simp [fires],
        by rw [h.iv]; simp [updI, heq]⟩⟩
    | @cancel id1 _ _ hn h =>
      refine ⟨by omega, ?_⟩
      by_cases heq : id = id1
      · subst heq
        exact Or.inr (Or.inl ⟨by rw [h.hist]; simp [pending], by rw [h.hist]; simp [fires], h.iv _, rfl⟩)
      · exact Or.inl ⟨by rw [h.hist]; simp [pending, heq], by rw [h.hist]; simp [fires], h.iv _⟩
    | @kill id1 _ _ hn h =>
      refine ⟨by omega, ?_⟩
      by_cases heq : id = id1
      · subst heq
        exact Or.inr (Or.inr (Or.inl ⟨by rw [h.hist]; simp [pending], by rw [h.hist]; simp [fires],
          by rw [h.iv]; simp [updI], rfl⟩))
      · exact Or.inl ⟨by rw [h.hist]; simp [pending, heq], by rw [h.hist]; simp [fires],
          by rw [h.iv]; simp [updI, heq]⟩

theorem iv_lt {q : Q} (hw : Wf q) {id i : Nat} (h : q.iv id = some i) : id < q.nextId := by
  unfold Q.iv at h
  cases hr : q.recs id with
  | none => simp [hr] at h
  | some r => exact known_lt hw hr

/-- C30, first half. From any state in which `id` is a one-shot timer, whatever happens except that it
    is rescheduled: it fires at most once more, not at all if it was not pending, and it is not pending
    after firing. -/
theorem C30_at_most_once {q q' : Q} (h : Reach q) {id : Nat} (hi : q.iv id = some invalidInterval)
    {cmds : List Cmd} (hc : ∀ c ∈ cmds, NoResched id c) (hrun : q.run cmds = .ok q') :
    (fires id q'.hist = fires id q.hist ∨
      (fires id q'.hist = fires id q.hist + 1 ∧ pending q.hist id ≠ none ∧ pending q'.hist id = none)) := by
  have hw := reach_wf h
  have := run_induct (I := fun q2 cs => id < q2.nextId ∧ (∀ c ∈ cs, NoResched id c) ∧
      (q2.iv id = some invalidInterval ∨ q2.iv id = none) ∧
      (fires id q2.hist = fires id q.hist ∧ (pending q2.hist id = none ∨ pending q2.hist id = pending q.hist id) ∨
        (fires id q2.hist = fires id q.hist + 1 ∧ pending q.hist id ≠ none ∧ pending q2.hist id = none)))
    hw hrun ⟨iv_lt hw hi, hc, Or.inl hi, Or.inl ⟨rfl, Or.inr rfl⟩⟩ (by
      intro q1 c q2 cs hw1 _ he _ ⟨h1, h2, h3, h4⟩
      obtain ⟨g1, g2⟩ := eff_one hw1 he h1 (h2 c (by simp))
      refine ⟨g1, fun c' hc' => h2 c' (by simp [hc']), ?_, ?_⟩
      · rcases g2 with g | g | g | ⟨_, _, _, _, _, _, _, _, g, _⟩
        · rw [g.2.2]; exact h3
        · rw [g.2.2.1]; exact h3
        · right; exact g.2.2.1
        · rw [g]; exact h3
      · rcases g2 with g | g | g | ⟨e, s, now, _, _, gp, _, gf, _, g⟩
        · rw [g.1, g.2.1]; exact h4
        · rw [g.2.1]
          rcases h4 with h4 | h4
          · left; exact ⟨h4.1, Or.inl g.1⟩
          · right; exact ⟨h4.1, h4.2.1, g.1⟩
        · rw [g.2.1]
          rcases h4 with h4 | h4
          · left; exact ⟨h4.1, Or.inl g.1⟩
          · right; exact ⟨h4.1, h4.2.1, g.1⟩
        · rcases g with ⟨_, g⟩ | ⟨i, s', gi, gne, _⟩
          · right
            rw [gf]
            rcases h4 with ⟨h5, h6⟩ | ⟨h5, h6, h7⟩
            · refine ⟨by rw [h5], ?_, g⟩
              rcases h6 with h6 | h6
              · rw [gp] at h6; simp at h6
              · rw [← h6, gp]; simp
            · rw [gp] at h7; simp at h7
          · rcases h3 with h3 | h3
            · rw [gi] at h3; simp at h3; exact absurd h3 gne
            · rw [gi] at h3; simp at h3)
  rcases this.2.2.2 with h1 | h1
  · left; exact h1.1
  · right; exact h1

theorem eff_loop {q q' : Q} {c : Cmd} (he : Eff q c q') {now : Nat} (hl : q.loopNow = some now)
    (hc : c ≠ .leave) : q'.loopNow = some now := by
  cases he with
  | tick => exact hl
  | enter h => rw [h] at hl; simp at hl
  | leave => simp at hc
  | oneshot _ _ _ _ _ _ h5 => rw [h5.loop]; exact hl
  | periodic _ _ _ _ _ _ _ h5 => rw [h5.loop]; exact hl
  | api ha =>
    cases ha with
    | refuse => exact hl
    | create _ _ h => rw [h.loop]; exact hl
    | createOneshot _ h => rw [h.loop]; exact hl
    | set _ _ h => rw [h.loop]; exact hl
    | setOneshot _ _ h => rw [h.loop]; exact hl
    | setOneshotOnQ _ h => rw [h.loop]; exact hl
    | resched _ _ _ h _ => rw [h.loop]; exact hl
    | reschedOneshot _ _ _ h => rw [h.loop]; exact hl
    | cancel _ _ h => rw [h.loop]; exact hl
    | kill _ _ h => rw [h.loop]; exact hl

/-- The run loop is left only when no pending timer is due. -/
theorem leave_none_due {q q' : Q} (hw : Wf q) (hx : q.exec .leave = .ok q') {now : Nat}
    (hl : q.loopNow = some now) (hnow : now < two63) {j e s : Nat}
    (hp : pending q.hist j = some (e, s)) : now < e := by
  rw [hw.pend] at hp
  have ho := hw.order
  simp only [Q.exec, hl] at hx
  cases hc : q.base.chain with
  | nil => rw [hc] at hp; simp at hp
  | cons n ch =>
    rw [hc] at hp ho
    simp only [hc] at hx
    have h1 := order_head ho hp
    cases hd : due now n.expire with
    | true => rw [hd] at hx; simp at hx
    | false =>
      have h2 := of_decide_eq_false hd
      unfold sub64 at h2
      simp only [two63, two64] at *
      omega

/-- C30, second half. A one-shot timer that is due when the run loop starts (or at any point of it)
    and that no call names has fired exactly once when the loop ends. -/
theorem C30_exactly_once {q q1 q2 : Q} (h : Reach q) {id e s now : Nat}
    (hi : q.iv id = some invalidInterval) (hp : pending q.hist id = some (e, s))
    (hl : q.loopNow = some now) (hnow : now < two63) (hdue : e ≤ now) {cmds : List Cmd}
    (hc : ∀ c ∈ cmds, NotNamed id c ∧ c ≠ .leave) (hrun : q.run cmds = .ok q1)
    (hx : q1.exec .leave = .ok q2) :
    fires id q2.hist = fires id q.hist + 1 ∧ pending q2.hist id = none := by
  have hw := reach_wf h
  have key := run_induct (I := fun q2 cs => Wf q2 ∧ id < q2.nextId ∧ (∀ c ∈ cs, NotNamed id c ∧ c ≠ .leave) ∧
      q2.loopNow = some now ∧ q2.iv id = some invalidInterval ∧
      (fires id q2.hist = fires id q.hist ∧ pending q2.hist id = some (e, s) ∨
        (fires id q2.hist = fires id q.hist + 1 ∧ pending q2.hist id = none)))
    hw hrun ⟨hw, iv_lt hw hi, hc, hl, hi, Or.inl ⟨rfl, hp⟩⟩ (by
      intro q1 c q2 cs hw1 hw2 he _ ⟨_, h1, h2, h3, h4, h5⟩
      have hcc := h2 c (by simp)
      obtain ⟨g1, g2⟩ := eff_one hw1 he h1 hcc.1.1
      refine ⟨hw2, g1, fun c' hc' => h2 c' (by simp [hc']), eff_loop he h3 hcc.2, ?_⟩
      rcases g2 with g | g | g | ⟨e', s', now', _, _, gp, _, gf, gi, g⟩
      · rw [g.1, g.2.1, g.2.2]; exact ⟨h4, h5⟩
      · exact absurd g.2.2.2 hcc.1.2.1
      · exact absurd g.2.2.2 hcc.1.2.2
      · rw [gi]
        refine ⟨h4, ?_⟩
        rcases g with ⟨_, g⟩ | ⟨i, _, gi', gne, _⟩
        · right
          rcases h5 with h5 | h5
          · rw [gf, h5.1]; exact ⟨rfl, g⟩
          · rw [gp] at h5; simp at h5
        · rw [gi'] at h4; simp at h4; exact absurd h4 gne)
  obtain ⟨hw1, _, _, hl1, _, hor⟩ := key
  have he := (exec_eff hw1 hx).2
  have hhist : q2.hist = q1.hist := by cases he with | leave => rfl
  rw [hhist]
  rcases hor with ⟨_, h2⟩ | h1
  · have := leave_none_due hw1 hx hl1 hnow h2
    omega
  · exact h1

/-- C32, cancel. After a successful cancel the timer is not pending, no other timer is affected, and
    the timer does not fire until it is rescheduled. -/
theorem C32_cancel {q q1 q' : Q} (h : Reach q) {id : Nat} (hlive : q.iv id ≠ none)
    (hx : q.exec (.api (.cancel id)) = .ok q1) {cmds : List Cmd}
    (hc : ∀ c ∈ cmds, NoResched id c) (hrun : q1.run cmds = .ok q') :
    pending q1.hist id = none ∧ (∀ j, j ≠ id → pending q1.hist j = pending q.hist j) ∧
    fires id q'.hist = fires id q.hist := by
  have hw := reach_wf h
  have hid : id < q.nextId := by
    cases hi : q.iv id with
    | none => exact absurd hi hlive
    | some i => exact iv_lt hw hi
  obtain ⟨hw1, he⟩ := exec_eff hw hx
  have hkey : q1.hist = .cancel id :: q.hist ∧ q1.nextId = q.nextId := by
    simp only [Q.exec, Q.api] at hx
    cases hr : q.recs id with
    | none => exact absurd (by simp [Q.iv, hr]) hlive
    | some r =>
      rw [hr] at hx
      obtain ⟨q2, h1, _, h3, h4, _, _⟩ := unlinkIf_inv hw hr
      simp only [h1, Res.bind] at hx
      simp at hx
      subst hx
      exact ⟨by simp [h3], h4.1⟩
  refine ⟨by rw [hkey.1]; simp [pending], fun j hj => by rw [hkey.1]; simp [pending, hj], ?_⟩
  have := run_induct (I := fun q2 cs => id < q2.nextId ∧ (∀ c ∈ cs, NoResched id c) ∧
      fires id q2.hist = fires id q.hist ∧ pending q2.hist id = none) hw1 hrun
    ⟨by rw [hkey.2]; exact hid, hc, by rw [hkey.1]; simp [fires], by rw [hkey.1]; simp [pending]⟩ (by
      intro q1 c q2 cs hw1 _ he _ ⟨h1, h2, h3, h4⟩
      obtain ⟨g1, g2⟩ := eff_one hw1 he h1 (h2 c (by simp))
      refine ⟨g1, fun c' hc' => h2 c' (by simp [hc']), ?_⟩
      rcases g2 with g | g | g | ⟨e, s, now, _, _, gp, _⟩
      · rw [g.1, g.2.1]; exact ⟨h3, h4⟩
      · rw [g.2.1]; exact ⟨h3, g.1⟩
      · rw [g.2.1]; exact ⟨h3, g.1⟩
      · rw [gp] at h4; simp at h4)
  exact this.2.2.1

/-- A timer that no longer exists is never rescheduled or invoked. -/
theorem dead_stays {q q' : Q} (hw : Wf q) {id : Nat} (hid : id < q.nextId) (hdead : q.iv id = none)
    (hp : pending q.hist id = none) {cmds : List Cmd} (hrun : q.run cmds = .ok q') :
    fires id q'.hist = fires id q.hist ∧ pending q'.hist id = none := by
  have := run_induct (I := fun q2 _ => id < q2.nextId ∧ q2.iv id = none ∧
      fires id q2.hist = fires id q.hist ∧ pending q2.hist id = none) hw hrun
    ⟨hid, hdead, rfl, hp⟩ (by
      intro q1 c q2 cs hw1 _ he hx ⟨h1, h2, h3, h4⟩
      have hrec : q1.recs id = none := by
        cases hr : q1.recs id with
        | none => rfl
        | some r => rw [iv_some hr] at h2; simp at h2
      by_cases hn : NoResched id c
      · obtain ⟨g1, g2⟩ := eff_one hw1 he h1 hn
        rcases g2 with g | g | g | ⟨e, s, now, _, _, gp, _⟩
        · rw [g.1, g.2.1, g.2.2]; exact ⟨g1, h2, h3, h4⟩
        · rw [g.2.1, g.2.2.1]; exact ⟨g1, h2, h3, g.1⟩
        · rw [g.2.1]; exact ⟨g1, g.2.2.1, h3, g.1⟩
        · rw [gp] at h4; simp at h4
      · -- a reschedule of a timer that does not exist is refused
        have hsame : q2 = q1 := by
          unfold NoResched at hn
          rw [Classical.not_and_iff_not_or_not] at hn
          rcases hn with hn | hn
          · obtain ⟨i, hi⟩ := Classical.not_forall.1 hn
            have hi := Classical.not_not.1 hi
            subst hi
            simp [Q.exec, Q.api, hrec] at hx
            exact hx.symm
          · obtain ⟨i, hi⟩ := Classical.not_forall.1 hn
            have hi := Classical.not_not.1 hi
            subst hi
            simp [Q.exec, Q.api, hrec] at hx
            exact hx.symm
        subst hsame
        exact ⟨h1, h2, h3, h4⟩)
  exact this.2.2

/-- C32, kill (what holds: no other call on the handle is in flight, see C32_kill_race). After kill on the
    owning queue the timer is never invoked again, whatever is called,
    and no other timer is affected. -/
theorem C32_kill_partial {q q1 q' : Q} (h : Reach q) {id : Nat} (hlive : q.iv id ≠ none)
    (hx : q.exec (.api (.kill id)) = .ok q1) {cmds : List Cmd} (hrun : q1.run cmds = .ok q') :
    pending q1.hist id = none ∧ (∀ j, j ≠ id → pending q1.hist j = pending q.hist j) ∧
    fires id q'.hist = fires id q.hist := by
  have hw := reach_wf h
  have hid : id < q.nextId := by
    cases hi : q.iv id with
    | none => exact absurd hi hlive
    | some i => exact iv_lt hw hi
  obtain ⟨hw1, he⟩ := exec_eff hw hx
  have hkey : q1.hist = .kill id :: q.hist ∧ q1.nextId = q.nextId ∧ q1.iv id = none := by
    simp only [Q.exec, Q.api] at hx
    cases hr : q.recs id with
    | none => exact absurd (by simp [Q.iv, hr]) hlive
    | some r =>
      rw [hr] at hx
      obtain ⟨q2, h1, _, h3, h4, _, _⟩ := unlinkIf_inv hw hr
      simp only [Q.killTimer, h1, Res.bind] at hx
      simp at hx
      subst hx
      exact ⟨by simp [h3], h4.1, by simp [Q.iv, upd]⟩
  refine ⟨by rw [hkey.1]; simp [pending], fun j hj => by rw [hkey.1]; simp [pending, hj], ?_⟩
  have := (dead_stays hw1 (by rw [hkey.2.1]; exact hid) hkey.2.2 (by rw [hkey.1]; simp [pending]) hrun).1
  rw [this, hkey.1]; simp [fires]

/-! ## C31: periodic timers -/

theorem sub64_periodic {clock i now e : Nat} (hc : clock < two64) (hi : i < two64) (hn : now = clock)
    (he : e < two64) : sub64 ((clock + i) % two64) (sub64 now e) = (e + i) % two64 := by
  subst hn
  unfold sub64
  simp only [two64] at *
  omega

/-- Each iteration of the loop for timers runs at the time the loop started: no time passes during the
    run loop. -/
def Prompt : Q → List Cmd → Prop
  | _, [] => True
  | q, c :: cs => (c = .fire → q.loopNow = some q.clock) ∧ ∀ q', q.exec c = .ok q' → Prompt q' cs

/-- C31. A periodic timer that no call names, run by loops in which no time passes (however late each
    loop is): after `k` further invocations its expiry is exactly `k` intervals later. -/
theorem C31_no_drift {q q' : Q} (h : Reach q) {id i e s : Nat} (hi : q.iv id = some i)
    (hper : i ≠ invalidInterval) (hi64 : i < two64) (hp : pending q.hist id = some (e, s))
    (he64 : e < two64) (hcl : q.clock < two64) {cmds : List Cmd} (hc : ∀ c ∈ cmds, NotNamed id c)
    (hprompt : Prompt q cmds) (hrun : q.run cmds = .ok q') :
    ∃ k s', fires id q'.hist = fires id q.hist + k ∧
      pending q'.hist id = some ((e + k * i) % two64, s') := by
  have hw := reach_wf h
  have := run_induct (I := fun q2 cs => id < q2.nextId ∧ (∀ c ∈ cs, NotNamed id c) ∧ Prompt q2 cs ∧
      q2.iv id = some i ∧ q2.clock < two64 ∧
      ∃ k s', fires id q2.hist = fires id q.hist + k ∧
        pending q2.hist id = some ((e + k * i) % two64, s')) hw hrun
    ⟨iv_lt hw hi, hc, hprompt, hi, hcl, 0, s, rfl, by rw [hp]; simp [Nat.mod_eq_of_lt he64]⟩ (by
      intro q1 c q2 cs hw1 _ he hx ⟨h1, h2, h3, h4, hcl1, k, s', h5, h6⟩
      have hcc := h2 c (by simp)
      obtain ⟨g1, g2⟩ := eff_one hw1 he h1 hcc.1
      have hcl2 : q2.clock < two64 := by
        cases he with
        | tick _ h => exact h
        | enter => exact hcl1
        | leave => exact hcl1
        | oneshot _ _ _ _ _ _ h => rw [h.clock]; exact hcl1
        | periodic _ _ _ _ _ _ _ h => rw [h.clock]; exact hcl1
        | api ha =>
          cases ha with
          | refuse => exact hcl1
          | create _ _ h => rw [h.clock]; exact hcl1
          | createOneshot _ h => rw [h.clock]; exact hcl1
          | set _ _ h => rw [h.clock]; exact hcl1
          | setOneshot _ _ h => rw [h.clock]; exact hcl1
          | setOneshotOnQ _ h => rw [h.clock]; exact hcl1
          | resched _ _ _ h _ => rw [h.clock]; exact hcl1
          | reschedOneshot _ _ _ h => rw [h.clock]; exact hcl1
          | cancel _ _ h => rw [h.clock]; exact hcl1
          | kill _ _ h => rw [h.clock]; exact hcl1
      refine ⟨g1, fun c' hc' => h2 c' (by simp [hc']), h3.2 q2 hx, ?_⟩
      rcases g2 with g | g | g | ⟨e', s1, now, gc, gl, gp, _, gf, gi, g⟩
      · rw [g.1, g.2.1, g.2.2]; exact ⟨h4, hcl2, k, s', h5, h6⟩
      · exact absurd g.2.2.2 hcc.2.1
      · exact absurd g.2.2.2 hcc.2.2
      · rw [gi]
        refine ⟨h4, hcl2, k + 1, ?_⟩
        rcases g with ⟨gi', _⟩ | ⟨i', s2, gi', _, gp'⟩
        · rw [h4] at gi'; simp at gi'; exact absurd gi' hper
        · rw [h4] at gi'; simp at gi'; subst gi'
          have hl := h3.1 gc
          rw [gl] at hl
          simp at hl
          rw [h6] at gp
          simp at gp
          refine ⟨s2, by rw [gf, h5]; omega, ?_⟩
          rw [gp', sub64_periodic hcl1 hi64 hl (by rw [← gp.1]; exact Nat.mod_lt _ (by decide)), ← gp.1]
          have : e + (k + 1) * i = e + k * i + i := by rw [Nat.add_mul]; omega
          rw [this, Nat.mod_add_mod])
  exact this.2.2.2.2.2

/-- The general step: if the clock has moved on by `d` since the loop started, the next expiry is the
    old one plus the interval plus `d`: the only source of drift is the time spent inside the run
    loop. -/
theorem C31_lag {q q' : Q} (h : Reach q) (hx : q.exec .fire = .ok q') :
    ∃ id e s now, q.loopNow = some now ∧ pending q.hist id = some (e, s) ∧ due now e = true ∧
      (∀ i, q.iv id = some i → i ≠ invalidInterval → e ≤ now → q.clock + i < two64 →
        ∃ s', pending q'.hist id = some (e + i + (q.clock - now), s')) := by
  have hw := reach_wf h
  have hle := loop_le_clock h
  obtain ⟨_, he⟩ := exec_eff hw hx
  cases he with
  | @oneshot now id e s _ h1 h2 h3 h4 hi hn h5 =>
    refine ⟨id, e, s, now, h1, h2, h3, ?_⟩
    intro i hi' hne
    rw [hi] at hi'; simp at hi'; exact absurd hi'.symm hne
  | @periodic now id e s i _ h1 h2 h3 h4 hi hi' hn h5 =>
    refine ⟨id, e, s, now, h1, h2, h3, ?_⟩
    intro i' hi2 hne hen hlt
    rw [hi] at hi2; simp at hi2; subst hi2
    refine ⟨q.hist.length + 1, ?_⟩
    have := hle now h1
    rw [h5.hist]
    simp only [pending, List.cons_append, List.nil_append, if_true, List.length_cons]
    unfold sub64
    simp only [two64] at *
    congr 2
    omega

/-- C28, within one run loop: if the callback of a timer makes no timer calls, the next timer invoked
    by the loop has an expiry that is not smaller (all times below 2^63). -/
theorem C28_nondecreasing {q q1 q2 q3 : Q} (h : Reach q) (hx : q.exec .fire = .ok q1)
    {ts : List Nat} (hts : q1.run (ts.map .tick) = .ok q2) (hx2 : q2.exec .fire = .ok q3)
    (hr : ∀ id i, q.iv id = some i → i ≠ invalidInterval → q.clock + i < two63) (hcl : q.clock < two63)
    (hsane : ∀ j e s, pending q.hist j = some (e, s) → e < two63) :
    ∃ id e now id' e' now' l, .fire id e now ∈ q1.hist.take 2 ∧ q3.hist = l ++ q1.hist ∧
      .fire id' e' now' ∈ l ∧ e ≤ e' := by
  have hw := reach_wf h
  have hle := loop_le_clock h
  obtain ⟨hw1, he⟩ := exec_eff hw hx
  obtain ⟨hw2, hh2⟩ := run_induct (I := fun q2 cs => (Wf q2 ∧ q2.hist = q1.hist) ∧ ∃ ts : List Nat, cs = ts.map .tick)
    hw1 hts ⟨⟨hw1, rfl⟩, ts, rfl⟩ (by
      intro qa c qb cs hwa hwb hea hxa ⟨⟨h1, h2⟩, ts', h3⟩
      cases ts' with
      | nil => simp at h3
      | cons t ts' =>
        simp at h3
        obtain ⟨rfl, rfl⟩ := h3
        refine ⟨⟨hwb, ?_⟩, ts', rfl⟩
        cases hea with
        | tick => exact h2) |>.1
  obtain ⟨_, he2⟩ := exec_eff hw2 hx2
  -- the second invocation, from the pending timers after the first
  obtain ⟨id', e', s', now', l, hp', hl1, hl2⟩ : ∃ id' e' s' now' l, pending q1.hist id' = some (e', s') ∧
      q3.hist = l ++ q1.hist ∧ Ev.fire id' e' now' ∈ l := by
    cases he2 with
    | @oneshot now2 id2 e2 s2 _ _ h2 _ _ _ _ h5 =>
      refine ⟨id2, e2, s2, now2, [_], by rw [← hh2]; exact h2, by rw [h5.hist, hh2], by simp⟩
    | @periodic now2 id2 e2 s2 _ _ _ h2 _ _ _ _ _ h5 =>
      refine ⟨id2, e2, s2, now2, [_, _], by rw [← hh2]; exact h2, by rw [h5.hist, hh2], by simp⟩
  cases he with
  | @oneshot now id e s _ h1 h2 h3 h4 hi hn h5 =>
    refine ⟨id, e, now, id', e', now', l, by rw [h5.hist]; simp, hl1, hl2, ?_⟩
    rw [h5.hist] at hp'
    simp only [pending, List.cons_append, List.nil_append] at hp'
    split at hp'
    · simp at hp'
    · rcases h4 id' e' s' hp' with h | h <;> omega
  | @periodic now id e s i _ h1 h2 h3 h4 hi hi' hn h5 =>
    refine ⟨id, e, now, id', e', now', l, by rw [h5.hist]; simp, hl1, hl2, ?_⟩
    rw [h5.hist] at hp'
    simp only [pending, List.cons_append, List.nil_append] at hp'
    by_cases heq : id' = id
    · simp [heq] at hp'
      have a1 := hr id i hi hi'
      have a2 := hle now h1
      have a3 := hsane id e s h2
      have a4 := due_iff _ _ h3
      have a5 := hp'.1
      unfold sub64 at a5
      simp only [two63, two64] at *
      omega
    · simp only [if_neg heq] at hp'
      rcases h4 id' e' s' hp' with h | h <;> omega

/-! ## C89: the poll timeout -/

/-- C89. The time the queue may sleep: unlimited exactly when no timer is pending; otherwise the time
    to the earliest expiry (0 if that has passed). -/
theorem C89_sleep {q : Q} (h : Reach q) (hcl : q.clock < two63)
    (hsane : ∀ j e s, pending q.hist j = some (e, s) → e < q.clock + two63) :
    ((∀ j, pending q.hist j = none) ∧ q.maxWait = -1) ∨
    ∃ j e s, pending q.hist j = some (e, s) ∧
      (∀ j' e' s', pending q.hist j' = some (e', s') → e ≤ e') ∧
      q.maxWait = ((e - q.clock : Nat) : Int) := by
  have hw := reach_wf h
  have ho := hw.order
  unfold Q.maxWait
  cases hc : q.base.chain with
  | nil =>
    left
    refine ⟨?_, rfl⟩
    intro j
    cases hp : pending q.hist j with
    | none => rfl
    | some v =>
      obtain ⟨e, s⟩ := v
      rw [hw.pend, hc] at hp; simp at hp
  | cons n ch =>
    right
    have hp : pending q.hist n.id = some (n.expire, n.seq) := by rw [hw.pend, hc]; simp
    refine ⟨n.id, n.expire, n.seq, hp, ?_, ?_⟩
    · intro j' e' s' hp'
      rw [hw.pend, hc] at hp'
      rw [hc] at ho
      have := order_head ho hp'
      simp only at this
      omega
    · have := hsane _ _ _ hp
      show (if sub64 n.expire q.clock < two63 then ((sub64 n.expire q.clock : Nat) : Int) else 0) = _
      unfold sub64
      simp only [two63, two64] at *
      by_cases hlt : (n.expire + 18446744073709551616 - q.clock) % 18446744073709551616 < 9223372036854775808
      · rw [if_pos hlt]; omega
      · rw [if_neg hlt]; omega

/-! ## Concrete runs -/

def histOf (t : Nat) (cmds : List Cmd) : Option (List Ev) :=
  match (Q.init t).run cmds with
  | .ok q => some q.hist
  | _ => none

/-- Check a property of the state after a run. -/
def after? (r : Res Q) (f : Q → Bool) : Bool :=
  match r with
  | .ok q => f q
  | _ => false

theorem after?_elim {r : Res Q} {f : Q → Bool} (h : after? r f = true) : ∃ q, r = .ok q ∧ f q = true := by
  cases r with
  | ok q => exact ⟨q, rfl, h⟩
  | no => simp [after?] at h
  | ub => simp [after?] at h

/-- A periodic timer of 10 ms (0), a one-shot due at 25 (1), two timers due at 30 scheduled in the
    order 3, 2: the loop at time 30. -/
def demo : List Cmd :=
  [.api (.set 10), .api (.setOneshot 25), .api .createOneshot, .api (.setOneshot 30),
   .api (.reschedOneshot 2 30), .tick 30, .enter, .fire, .fire, .fire, .fire, .fire, .leave]

example : histOf 1 demo = some [.fire 2 30 30, .fire 3 30 30, .fire 1 25 30, .sched 0 31, .fire 0 21 30,
    .sched 0 21, .fire 0 11 30, .sched 2 30, .sched 3 30, .sched 1 25, .sched 0 11] := by decide +kernel

/-- C28_order and C29_history speak about real invocations. -/
example : ∃ q, Reach q ∧ q.hist = [] ++ .fire 2 30 30 :: q.hist.tail ∧ .fire 1 25 30 ∈ q.hist := by
  obtain ⟨q, h1, h2⟩ := after?_elim (r := (Q.init 1).run demo)
    (f := fun q => decide (q.hist = [] ++ .fire 2 30 30 :: q.hist.tail ∧ .fire 1 25 30 ∈ q.hist))
    (by decide +kernel)
  exact ⟨q, ⟨1, demo, h1⟩, of_decide_eq_true h2⟩

/-- C28_nondecreasing: two invocations in one loop. -/
example : ∃ q q1 q2 q3, Reach q ∧ q.exec .fire = .ok q1 ∧ q1.run ([31, 32].map .tick) = .ok q2 ∧
    q2.exec .fire = .ok q3 := by
  have h : after? ((Q.init 1).run (demo.take 9)) (fun q => after? (q.exec .fire) fun q1 =>
    after? (q1.run ([31, 32].map .tick)) fun q2 => after? (q2.exec .fire) fun _ => true) = true := by
    decide +kernel
  obtain ⟨q, h0, h⟩ := after?_elim h
  obtain ⟨q1, h1, h⟩ := after?_elim h
  obtain ⟨q2, h2, h⟩ := after?_elim h
  obtain ⟨q3, h3, h⟩ := after?_elim h
  exact ⟨q, q1, q2, q3, ⟨1, _, h0⟩, h1, h2, h3⟩

/-- C30: a one-shot timer due in the middle of a loop. -/
example : ∃ q q1 q2, Reach q ∧ q.iv 1 = some invalidInterval ∧ pending q.hist 1 = some (25, 1) ∧
    q.loopNow = some 30 ∧ q.run [.fire, .fire, .fire, .fire, .fire] = .ok q1 ∧ q1.exec .leave = .ok q2 := by
  have h : after? ((Q.init 1).run (demo.take 7)) (fun q => decide (q.iv 1 = some invalidInterval ∧
    pending q.hist 1 = some (25, 1) ∧ q.loopNow = some 30) &&
    after? (q.run [.fire, .fire, .fire, .fire, .fire]) fun q1 => after? (q1.exec .leave) fun _ => true)
      = true := by decide +kernel
  obtain ⟨q, h0, h⟩ := after?_elim h
  rw [Bool.and_eq_true] at h
  obtain ⟨q1, h1, h2⟩ := after?_elim h.2
  obtain ⟨q2, h2, _⟩ := after?_elim h2
  obtain ⟨a, b, c⟩ := of_decide_eq_true h.1
  exact ⟨q, q1, q2, ⟨1, _, h0⟩, a, b, c, h1, h2⟩

/-- C32: a pending timer is cancelled, another one killed. -/
example : ∃ q q1 q2, Reach q ∧ q.iv 1 ≠ none ∧ pending q.hist 1 ≠ none ∧
    q.exec (.api (.cancel 1)) = .ok q1 ∧ q1.exec (.api (.kill 0)) = .ok q2 ∧ pending q2.hist 0 = none ∧
    pending q1.hist 0 ≠ none := by
  have h : after? ((Q.init 1).run (demo.take 7)) (fun q => decide (q.iv 1 ≠ none ∧ pending q.hist 1 ≠ none) &&
    after? (q.exec (.api (.cancel 1))) fun q1 => after? (q1.exec (.api (.kill 0))) fun q2 =>
      decide (pending q2.hist 0 = none ∧ pending q1.hist 0 ≠ none)) = true := by decide +kernel
  obtain ⟨q, h0, h⟩ := after?_elim h
  rw [Bool.and_eq_true] at h
  obtain ⟨q1, h1, h2⟩ := after?_elim h.2
  obtain ⟨q2, h2, h3⟩ := after?_elim h2
  obtain ⟨a, b⟩ := of_decide_eq_true h.1
  obtain ⟨c, d⟩ := of_decide_eq_true h3
  exact ⟨q, q1, q2, ⟨1, _, h0⟩, a, b, h1, h2, c, d⟩

def promptB : Q → List Cmd → Bool
  | _, [] => true
  | q, c :: cs => (if c = .fire then q.loopNow == some q.clock else true) &&
      match q.exec c with
      | .ok q' => promptB q' cs
      | _ => true

theorem promptB_sound {q : Q} {cs : List Cmd} (h : promptB q cs = true) : Prompt q cs := by
  induction cs generalizing q with
  | nil => trivial
  | cons c cs ih =>
    simp only [promptB, Bool.and_eq_true] at h
    refine ⟨?_, ?_⟩
    · intro hc
      rw [if_pos hc] at h
      exact eq_of_beq h.1
    · intro q' hx
      rw [hx] at h
      exact ih h.2

/-- C31: loops at times 27 and 45, late by 16 and 14 ms, of a 10 ms timer started at 1. -/
def late : List Cmd :=
  [.tick 27, .enter, .fire, .fire, .leave, .tick 45, .enter, .fire, .fire, .leave]

example : ∃ q q', Reach q ∧ q.iv 0 = some 10 ∧ pending q.hist 0 = some (11, 0) ∧ Prompt q late ∧
    (∀ c ∈ late, NotNamed 0 c) ∧ q.run late = .ok q' ∧ fires 0 q'.hist = fires 0 q.hist + 4 := by
  have h : after? ((Q.init 1).run [.api (.set 10)]) (fun q => decide (q.iv 0 = some 10 ∧
      pending q.hist 0 = some (11, 0)) && promptB q late &&
      after? (q.run late) fun q' => decide (fires 0 q'.hist = fires 0 q.hist + 4)) = true := by
    decide +kernel
  obtain ⟨q, h0, h⟩ := after?_elim h
  rw [Bool.and_eq_true, Bool.and_eq_true] at h
  obtain ⟨q1, h1, h2⟩ := after?_elim h.2
  obtain ⟨a, b⟩ := of_decide_eq_true h.1.1
  refine ⟨q, q1, ⟨1, _, h0⟩, a, b, promptB_sound h.1.2, ?_, h1, of_decide_eq_true h2⟩
  intro c hc
  simp [late] at hc
  rcases hc with rfl | rfl | rfl | rfl | rfl | rfl | rfl | rfl <;> simp [NotNamed, NoResched]

/-- The catching up the comment in kernel/timer.c:522-527 wants to avoid happens: a 10 ms timer run at
    time 101 for the first time is invoked ten times in one loop. -/
theorem C31_burst : histOf 1 ([.api (.set 10), .tick 101, .enter] ++ List.replicate 10 .fire ++ [.leave])
    = some ((List.range 10).reverse.flatMap (fun k =>
        [.sched 0 (21 + 10 * k), .fire 0 (11 + 10 * k) 101]) ++ [.sched 0 11]) := by decide +kernel

/-- Expiry 0 is refused by aosl_mpq_set_oneshot_timer but not by aosl_mpq_set_oneshot_timer_on_q: it is
    taken as 2^64-1 and fires at once - unless another timer is pending, however far ahead, in which
    case it waits behind that one. -/
theorem C29_zero_expiry :
    histOf 1000 [.api (.setOneshotOnQ 0), .enter, .fire, .leave] =
      some [.fire 0 18446744073709551615 1000, .sched 0 18446744073709551615] ∧
    histOf 1000 [.api (.setOneshotOnQ 0), .api (.setOneshot 5000), .enter, .leave] =
      some [.sched 1 5000, .sched 0 18446744073709551615] := by
  constructor <;> decide +kernel

/-- C89: the sleep times along a run. -/
example : ∃ q, Reach q ∧ q.clock < two63 ∧ (∀ j e s, pending q.hist j = some (e, s) → e < q.clock + two63) ∧
    q.maxWait = 10 := by
  obtain ⟨q, h1, h2⟩ := after?_elim (r := (Q.init 1).run (demo.take 4))
    (f := fun q => decide (q.clock = 1 ∧ q.maxWait = 10 ∧
      q.hist = [.sched 3 30, .sched 1 25, .sched 0 11])) (by decide +kernel)
  obtain ⟨a, b, c⟩ := of_decide_eq_true h2
  refine ⟨q, ⟨1, _, h1⟩, by rw [a]; decide, ?_, b⟩
  intro j e s hp
  rw [c] at hp
  simp only [pending] at hp
  rw [a]
  simp only [two63]
  repeat' split at hp
  all_goals simp at hp
  all_goals omega

end Verif.Timer
