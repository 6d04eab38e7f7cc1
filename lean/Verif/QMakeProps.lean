import Verif.QMake

/-! Properties of `QMake`: C193, C194, C195. -/

namespace Verif.QMake

/-- Specification: everything a queue owns. -/
def Q.handles (q : Q) : List Nat := [some q.obj, q.name, q.efd, q.piper, q.pipew, q.event, q.lock, q.cond, q.qid].filterMap id

/-- The failure that loses a descriptor: the second socket of the pair that wakes up a queue cannot be made. -/
def Leaks (e : Env) (flags : Nat) : Prop := flags.testBit 1 = false ∧ ∃ c, e.pipe = .sockets true true false c

/-- Calls of the user. -/
inductive Op
  | create (e : Env) (flags : Nat) (pri max : Int)
  /-- destroys a queue that is there -/
  | destroy (q : Q) (e : Env)
deriving DecidableEq, Repr

structure World where
  s : St
  live : List (Q × Env)
deriving DecidableEq, Repr

def World.init : World := ⟨⟨[], 0, false, 0, 0, 0, 0⟩, []⟩

def step (b : Backend) (w : World) : Op → Option World
  | .create e flags pri max =>
    match create b e flags pri max w.s with
    | (some q, s) => some ⟨s, (q, e) :: w.live⟩
    | (none, s) => some ⟨s, w.live⟩
  | .destroy q e => if (q, e) ∈ w.live then some ⟨destroy b e w.s q, w.live.erase (q, e)⟩ else none

def run (b : Backend) : World → List Op → Option World
  | w, [] => some w
  | w, o :: os => match step b w o with
    | none => none
    | some w' => run b w' os

theorem drop_perm {s : St} {h : Nat} {L : List Nat} (hp : s.open_.Perm (h :: L)) : (s.drop h).open_.Perm L ∧ (s.drop h) = { s with open_ := (s.drop h).open_ } := by
  have hm : h ∈ s.open_ := hp.mem_iff.2 (by simp)
  have : s.drop h = { s with open_ := s.open_.erase h } := by simp [St.drop, hm]
  rw [this]
  refine ⟨?_, rfl⟩
  have := hp.erase h
  simpa using this

theorem dropO_perm {s : St} {o : Option Nat} {L : List Nat} (hp : s.open_.Perm (o.toList ++ L)) : (s.dropO o).open_.Perm L ∧ (s.dropO o) = { s with open_ := (s.dropO o).open_ } := by
  cases o with
  | none => exact ⟨by simpa [St.dropO] using hp, rfl⟩
  | some h => exact drop_perm (by simpa using hp)

theorem handles_eq (q : Q) : q.handles = q.obj :: (q.name.toList ++ (q.efd.toList ++ (q.piper.toList ++ (q.pipew.toList ++ (q.event.toList ++ (q.lock.toList ++ (q.cond.toList ++ q.qid.toList))))))) := by
  obtain ⟨a, b, c, d, e, f, g, h, i, j⟩ := q
  cases b <;> cases c <;> cases d <;> cases e <;> cases g <;> cases h <;> cases i <;> cases j <;> rfl

/-- The end of a queue gives back what it owns, in any state. -/
theorem qDestroy_perm (b : Backend) (s : St) (q : Q) (L : List Nat) (hq : b ≠ .epoll → q.efd = none) (hp : s.open_.Perm (q.handles ++ L)) :
    (qDestroy b s q).open_.Perm L ∧ (qDestroy b s q) = { s with open_ := (qDestroy b s q).open_ } := by
  rw [handles_eq] at hp
  have p1 : s.open_.Perm (q.piper.toList ++ (q.pipew.toList ++ (q.event.toList ++ (q.efd.toList ++ (q.lock.toList ++ (q.cond.toList ++ (q.qid.toList ++ (q.name.toList ++ (q.obj :: L))))))))) := by
    refine hp.trans ?_
    rw [List.perm_iff_count]
    intro a
    simp only [List.count_append, List.count_cons]; omega
  obtain ⟨a1, e1⟩ := dropO_perm p1
  obtain ⟨a2, e2⟩ := dropO_perm a1
  obtain ⟨a3, e3⟩ := dropO_perm a2
  have key : ∀ s4 : St, s4 = { s with open_ := s4.open_ } → s4.open_.Perm (q.lock.toList ++ (q.cond.toList ++ (q.qid.toList ++ (q.name.toList ++ (q.obj :: L))))) →
      (freeObj (((s4.dropO q.lock).dropO q.cond).dropO q.qid) q).open_.Perm L ∧
      freeObj (((s4.dropO q.lock).dropO q.cond).dropO q.qid) q = { s with open_ := (freeObj (((s4.dropO q.lock).dropO q.cond).dropO q.qid) q).open_ } := by
    intro s4 e4 a4
    obtain ⟨a5, e5⟩ := dropO_perm a4
    obtain ⟨a6, e6⟩ := dropO_perm a5
    obtain ⟨a7, e7⟩ := dropO_perm a6
    obtain ⟨a8, e8⟩ := dropO_perm a7
    obtain ⟨a9, e9⟩ := drop_perm a8
    refine ⟨a9, ?_⟩
    simp only [freeObj]
    rw [e9, e8, e7, e6, e5, e4]
  have e3' : ((s.dropO q.piper).dropO q.pipew).dropO q.event = { s with open_ := (((s.dropO q.piper).dropO q.pipew).dropO q.event).open_ } := by rw [e3, e2, e1]
  cases b with
  | epoll =>
    obtain ⟨a4, e4⟩ := dropO_perm a3
    exact key _ (by rw [e4, e3']) a4
  | poll => rw [hq (by simp)] at a3; exact key _ e3' a3
  | select => rw [hq (by simp)] at a3; exact key _ e3' a3

/-- Only the handles have changed. -/
def Only (s s' : St) : Prop := s' = { s with open_ := s'.open_, next := s'.next }

theorem sigp_spec (b : Backend) (e : Env) (evt : Bool) (s : St) (q : Q) (er : Int) (hl : evt = false → ∀ c, e.pipe ≠ .sockets true true false c) (r : Bool) (s' : St) (q' : Q) (er' : Int)
    (h : initSigp b e evt s q er = (r, s', q', er')) :
    Only s s' ∧ (q' = { q with piper := q'.piper, pipew := q'.pipew, activated := q'.activated, event := q'.event }) ∧
    s'.open_.Perm ((if r then q'.piper.toList ++ (q'.pipew.toList ++ q'.event.toList) else []) ++ s.open_) ∧ (r = false → q'.piper = none ∧ q'.pipew = none ∧ q'.event = none) := by
  cases evt with
  | true =>
    simp only [initSigp, if_true] at h
    split at h
    · simp only [St.make, Prod.mk.injEq] at h
      obtain ⟨rfl, rfl, rfl, rfl⟩ := h
      simp [Only]
    · simp only [Prod.mk.injEq] at h
      obtain ⟨rfl, rfl, rfl, rfl⟩ := h
      simp [Only]
  | false =>
    have hl := hl rfl
    simp only [initSigp, Bool.false_eq_true, if_false, initPipe] at h
    cases hp : e.pipe with
    | pipe ok =>
      cases ok with
      | false =>
        simp [hp, osPipe, finiSigp, St.dropO] at h
        obtain ⟨rfl, rfl, rfl, rfl⟩ := h
        simp [Only]
      | true =>
        simp only [hp, osPipe, finiSigp, St.dropO, St.make, St.drop, List.mem_cons, true_or, or_true, if_true, List.erase_cons, beq_self_eq_true, beq_iff_eq, Nat.add_eq_left, Nat.one_ne_zero, if_false] at h
        repeat' split at h
        all_goals
          simp only [Prod.mk.injEq] at h
          obtain ⟨rfl, rfl, rfl, rfl⟩ := h
          simp [Only, List.erase_cons]
        all_goals exact List.Perm.swap _ _ _
    | sockets a1 a2 a3 a4 =>
      have : ¬ (a1 = true ∧ a2 = true ∧ a3 = false) := by rintro ⟨rfl, rfl, rfl⟩; exact hl a4 hp
      cases a1 <;> cases a2 <;> cases a3 <;> cases a4 <;> first
        | (exfalso; simp at this; done)
        | (simp [hp, osPipe, finiSigp, St.dropO, St.make, St.drop] at h
           obtain ⟨rfl, rfl, rfl, rfl⟩ := h
           simp [Only, List.erase_cons]; done)
        | (simp only [hp, osPipe, finiSigp, St.dropO, St.make, St.drop, Bool.not_true, Bool.false_eq_true, if_false, List.mem_cons, true_or, or_true, if_true, List.erase_cons, beq_self_eq_true, beq_iff_eq, Nat.add_eq_left, Nat.one_ne_zero] at h
           repeat' split at h
           all_goals
             simp only [Prod.mk.injEq] at h
             obtain ⟨rfl, rfl, rfl, rfl⟩ := h
             simp [Only, List.erase_cons]
           all_goals exact List.Perm.swap _ _ _)

theorem Only.trans {a b c : St} (h1 : Only a b) (h2 : Only b c) : Only a c := by
  unfold Only at *
  rw [h2, h1]

theorem only_drop (s : St) (h : Nat) (L : List Nat) (hp : s.open_.Perm (h :: L)) : Only s (s.drop h) := by
  have := (drop_perm hp).2
  unfold Only; rw [this]

theorem only_dropO (s : St) (h : Option Nat) (L : List Nat) (hp : s.open_.Perm (h.toList ++ L)) : Only s (s.dropO h) := by
  have := (dropO_perm hp).2
  unfold Only; rw [this]

theorem mpInit_spec (b : Backend) (e : Env) (evt : Bool) (s : St) (q : Q) (er : Int) (hq : q.efd = none) (hl : evt = false → ∀ c, e.pipe ≠ .sockets true true false c) (r : Bool) (s' : St) (q' : Q) (er' : Int)
    (h : mpInit b e evt s q er = (r, s', q', er')) :
    Only s s' ∧ (q' = { q with efd := q'.efd, piper := q'.piper, pipew := q'.pipew, activated := q'.activated, event := q'.event }) ∧
    s'.open_.Perm ((if r then q'.efd.toList ++ (q'.piper.toList ++ (q'.pipew.toList ++ q'.event.toList)) else []) ++ s.open_) ∧ (b ≠ .epoll → q'.efd = none) := by
  have other : ∀ r s' q' er', initSigp b e evt s q er = (r, s', q', er') → Only s s' ∧ (q' = { q with efd := q'.efd, piper := q'.piper, pipew := q'.pipew, activated := q'.activated, event := q'.event }) ∧
      s'.open_.Perm ((if r then q'.efd.toList ++ (q'.piper.toList ++ (q'.pipew.toList ++ q'.event.toList)) else []) ++ s.open_) ∧ (b ≠ .epoll → q'.efd = none) := by
    intro r s' q' er' h
    obtain ⟨a1, a2, a3, a4⟩ := sigp_spec b e evt s q er hl r s' q' er' h
    have he : q'.efd = none := by rw [a2]; exact hq
    refine ⟨a1, ?_, ?_, fun _ => he⟩
    · rw [a2]
    · rw [he]; simpa using a3
  cases b with
  | poll => exact other _ _ _ _ h
  | select => exact other _ _ _ _ h
  | epoll =>
    simp only [mpInit] at h
    split at h
    · simp only [Prod.mk.injEq] at h
      obtain ⟨rfl, rfl, rfl, rfl⟩ := h
      refine ⟨rfl, ?_, by simp, by simp⟩
      simp
    · simp only [St.make] at h
      split at h
      · rename_i s2 q2 er2 h2
        simp only [Prod.mk.injEq] at h
        obtain ⟨rfl, rfl, rfl, rfl⟩ := h
        obtain ⟨a1, a2, a3, a4⟩ := sigp_spec _ e evt _ _ er hl _ _ _ _ h2
        have he : q2.efd = some s.next := by rw [a2]
        have o0 : Only s { s with open_ := s.next :: s.open_, next := s.next + 1 } := rfl
        refine ⟨o0.trans a1, by rw [a2], ?_, by simp⟩
        rw [he]
        refine a3.trans ?_
        rw [List.perm_iff_count]; intro a
        simp only [if_true, List.count_append, List.count_cons, Option.toList_some, List.count_nil]; omega
      · rename_i s2 q2 er2 h2
        simp only [finiPub, Prod.mk.injEq] at h
        obtain ⟨rfl, rfl, rfl, rfl⟩ := h
        obtain ⟨a1, a2, a3, a4⟩ := sigp_spec _ e evt _ _ er hl _ _ _ _ h2
        have he : q2.efd = some s.next := by rw [a2]
        have a3' : s2.open_.Perm (s.next :: s.open_) := by simpa using a3
        rw [he]
        have o0 : Only s { s with open_ := s.next :: s.open_, next := s.next + 1 } := rfl
        refine ⟨o0.trans (a1.trans (only_drop _ _ _ a3')), ?_, ?_, by simp⟩
        · rw [a2]
        · simpa [St.dropO] using (drop_perm a3').1

theorem freeObj_perm (s : St) (q : Q) (L : List Nat) (hp : s.open_.Perm (q.name.toList ++ (q.obj :: L))) : (freeObj s q).open_.Perm L ∧ Only s (freeObj s q) := by
  obtain ⟨a1, e1⟩ := dropO_perm hp
  obtain ⟨a2, e2⟩ := drop_perm a1
  exact ⟨a2, (only_dropO _ _ _ hp).trans (only_drop _ _ _ a1)⟩

theorem qCreate_spec (b : Backend) (e : Env) (evt : Bool) (s : St) (hl : evt = false → ∀ c, e.pipe ≠ .sockets true true false c) (r : Option Q) (s' : St) (er : Int)
    (h : qCreate b e evt s = (r, s', er)) :
    Only s s' ∧ (∀ q, r = some q → s'.open_.Perm (q.handles ++ s.open_) ∧ (b ≠ .epoll → q.efd = none)) ∧ (r = none → s'.open_.Perm s.open_) := by
  simp only [qCreate] at h
  split at h
  · simp only [Prod.mk.injEq] at h; obtain ⟨rfl, rfl, rfl⟩ := h
    exact ⟨rfl, by simp, fun _ => List.Perm.refl _⟩
  · generalize hnm : (if e.nmem = true then (some s.make.2.make.1, s.make.2.make.2) else (none, s.make.2)) = nm at h
    obtain ⟨nm, s2⟩ := nm
    have hs2 : Only s s2 ∧ s2.open_.Perm (nm.toList ++ (s.next :: s.open_)) := by
      split at hnm <;> · simp only [Prod.mk.injEq] at hnm; obtain ⟨rfl, rfl⟩ := hnm; exact ⟨rfl, by simp [St.make]⟩
    simp only [] at h
    split at h
    · rename_i s3 q3 er3 h3
      simp only [Prod.mk.injEq] at h; obtain ⟨rfl, rfl, rfl⟩ := h
      obtain ⟨a1, a2, a3, a4⟩ := mpInit_spec b e evt _ _ _ rfl hl _ _ _ _ h3
      have e1 : q3.name = nm := by rw [a2]
      have e2 : q3.obj = s.next := by rw [a2]; rfl
      have p : s3.open_.Perm (q3.name.toList ++ (q3.obj :: s.open_)) := by rw [e1, e2]; exact (by simpa using a3 : s3.open_.Perm s2.open_).trans hs2.2
      obtain ⟨b1, b2⟩ := freeObj_perm _ _ _ p
      exact ⟨hs2.1.trans (a1.trans b2), by simp, fun _ => b1⟩
    · rename_i s3 q3 er3 h3
      obtain ⟨a1, a2, a3, a4⟩ := mpInit_spec b e evt _ _ _ rfl hl _ _ _ _ h3
      have e1 : q3.name = nm := by rw [a2]
      have e2 : q3.obj = s.next := by rw [a2]; rfl
      have a3 := a3.trans (hs2.2.append_left _)
      split at h
      · rename_i er' hid
        simp only [St.make, Prod.mk.injEq] at h; obtain ⟨rfl, rfl, rfl⟩ := h
        simp only [if_true] at a3
        have dd : (St.drop (St.drop { s3 with open_ := (s3.next + 1) :: s3.next :: s3.open_, next := s3.next + 1 + 1 } s3.next) (s3.next + 1)) = { s3 with next := s3.next + 1 + 1 } := by
          simp [St.drop, List.erase_cons]
        rw [dd]
        have := qDestroy_perm b { s3 with next := s3.next + 1 + 1 } { q3 with lock := none, cond := none, qid := none } s.open_ a4 (by
          rw [handles_eq]
          refine a3.trans ?_
          rw [List.perm_iff_count]; intro a
          simp only [e1, e2, List.count_append, List.count_cons, Option.toList_none, List.count_nil]; omega)
        have hfree : ∀ x y z x' y' z', freeObj (mpFini b { s3 with next := s3.next + 1 + 1 } { q3 with lock := x, cond := y, qid := z }).1 (mpFini b { s3 with next := s3.next + 1 + 1 } { q3 with lock := x, cond := y, qid := z }).2 =
            freeObj (mpFini b { s3 with next := s3.next + 1 + 1 } { q3 with lock := x', cond := y', qid := z' }).1 (mpFini b { s3 with next := s3.next + 1 + 1 } { q3 with lock := x', cond := y', qid := z' }).2 := by
          intros; cases b <;> simp [mpFini, finiSigp, finiPub, freeObj]
        have hdes : qDestroy b { s3 with next := s3.next + 1 + 1 } { q3 with lock := none, cond := none, qid := none } =
            freeObj (mpFini b { s3 with next := s3.next + 1 + 1 } { q3 with lock := none, cond := none, qid := none }).1 (mpFini b { s3 with next := s3.next + 1 + 1 } { q3 with lock := none, cond := none, qid := none }).2 := by
          cases b <;> simp [qDestroy, mpFini, finiSigp, finiPub, St.dropO]
        rw [hdes, ← hfree (some s3.next) (some (s3.next + 1)) q3.qid none none none] at this
        refine ⟨hs2.1.trans (a1.trans ?_), by simp, fun _ => this.1⟩
        unfold Only
        rw [this.2]
      · rename_i hid
        simp only [St.make, Prod.mk.injEq] at h; obtain ⟨rfl, rfl, rfl⟩ := h
        refine ⟨hs2.1.trans (a1.trans rfl), ?_, by simp⟩
        intro q hq
        cases hq
        refine ⟨?_, a4⟩
        rw [handles_eq]
        rw [List.perm_iff_count]; intro a
        have := List.perm_iff_count.1 a3 a
        simp only [e1, e2, if_true, List.count_append, List.count_cons, Option.toList_some, List.count_nil] at this ⊢; omega

/-- Specification: the call gets as far as making the queue: the flags, the size and the priority are allowed and the thread has started. -/
def Starts (e : Env) (flags : Nat) (pri max : Int) : Prop := flags < 65536 ∧ 1 ≤ max ∧ max ≤ 1000000 ∧ 0 ≤ pri ∧ pri ≤ 5 ∧ e.thread = true

/-- What one call of aosl_mpq_create_flags does. -/
theorem create_spec (b : Backend) (e : Env) (flags : Nat) (pri max : Int) (s : St) (hl : ¬ Leaks e flags) (r : Option Q) (s' : St) (h : create b e flags pri max s = (r, s')) :
    s'.bad = s.bad ∧ (∀ q, r = some q → s'.open_.Perm (q.handles ++ s.open_) ∧ (b ≠ .epoll → q.efd = none) ∧ s'.thr = s.thr + 1 ∧ s'.finis = s.finis ∧ s'.errno = s.errno ∧ Starts e flags pri max) ∧
    (r = none → s'.open_.Perm s.open_ ∧ s'.thr = s.thr ∧ (Starts e flags pri max → s'.finis = s.finis + e.fini.toNat) ∧ (¬ Starts e flags pri max → s'.finis = s.finis)) := by
  have bad : ∀ x : Int, ¬ Starts e flags pri max → (r, s') = (none, { s with errno := x }) → s'.bad = s.bad ∧
      (∀ q, r = some q → s'.open_.Perm (q.handles ++ s.open_) ∧ (b ≠ .epoll → q.efd = none) ∧ s'.thr = s.thr + 1 ∧ s'.finis = s.finis ∧ s'.errno = s.errno ∧ Starts e flags pri max) ∧
      (r = none → s'.open_.Perm s.open_ ∧ s'.thr = s.thr ∧ (Starts e flags pri max → s'.finis = s.finis + e.fini.toNat) ∧ (¬ Starts e flags pri max → s'.finis = s.finis)) := by
    intro x hs hx
    cases hx
    exact ⟨rfl, by simp, fun _ => ⟨List.Perm.refl _, rfl, fun h => absurd h hs, fun _ => rfl⟩⟩
  have hM : MAX = 1000000 := rfl
  simp only [create] at h
  by_cases c1 : flags / 65536 ≠ 0
  · rw [if_pos c1] at h; exact bad _ (by unfold Starts; intro g; omega) h.symm
  rw [if_neg c1] at h
  by_cases c2 : max < 1 ∨ max > MAX
  · rw [if_pos c2] at h; exact bad _ (by unfold Starts; intro g; omega) h.symm
  rw [if_neg c2] at h
  by_cases c3 : pri < 0 ∨ pri > 5
  · rw [if_pos c3] at h; exact bad s.errno (by unfold Starts; intro g; omega) h.symm
  rw [if_neg c3] at h
  by_cases c4 : (!e.thread) = true
  · rw [if_pos c4] at h; exact bad _ (by unfold Starts; intro g; rw [g.2.2.2.2.2] at c4; simp at c4) h.symm
  rw [if_neg c4] at h
  have hst : Starts e flags pri max := by
    refine ⟨?_, by omega, by omega, by omega, by omega, by simpa using c4⟩
    have := Nat.div_eq_zero_iff.1 (Decidable.not_not.mp c1); omega
  have hl' : flags.testBit 1 = false → ∀ c, e.pipe ≠ .sockets true true false c := fun h1 c h2 => hl ⟨h1, c, h2⟩
  generalize hk : qCreate b e (flags.testBit 1) s = k at h
  obtain ⟨r0, s1, er1⟩ := k
  obtain ⟨o1, k1, k2⟩ := qCreate_spec b e _ s hl' _ _ _ hk
  simp only [entry, hk] at h
  cases r0 with
  | none =>
    simp only [Prod.mk.injEq] at h
    obtain ⟨rfl, rfl⟩ := h
    have := k2 rfl
    unfold Only at o1
    refine ⟨?_, by simp, fun _ => ⟨?_, ?_, fun _ => ?_, fun hn => absurd hst hn⟩⟩ <;> (simp only [St.fini]; cases e.fini <;> simp only [Bool.false_eq_true, if_true, if_false, Bool.toNat_false, Bool.toNat_true, Nat.add_zero]) <;>
      first | exact this | (rw [o1]; done)
  | some q =>
    obtain ⟨p1, p2⟩ := k1 q rfl
    unfold Only at o1
    have alive : ∀ s2 : St, s2.bad = s.bad → s2.open_ = s1.open_ → s2.thr = s.thr → s2.finis = s.finis → s2.errno = s.errno → (r, s') = (some q, { s2 with thr := s2.thr + 1 }) → s'.bad = s.bad ∧
        (∀ q, r = some q → s'.open_.Perm (q.handles ++ s.open_) ∧ (b ≠ .epoll → q.efd = none) ∧ s'.thr = s.thr + 1 ∧ s'.finis = s.finis ∧ s'.errno = s.errno ∧ Starts e flags pri max) ∧
        (r = none → s'.open_.Perm s.open_ ∧ s'.thr = s.thr ∧ (Starts e flags pri max → s'.finis = s.finis + e.fini.toNat) ∧ (¬ Starts e flags pri max → s'.finis = s.finis)) := by
      intro s2 h1 h2 h3 h4 h5 hx
      cases hx
      refine ⟨h1, ?_, by simp⟩
      intro q' hq; cases hq
      exact ⟨by simpa [h2] using p1, p2, by simp [h3], h4, h5, hst⟩
    cases hin : e.init with
    | none =>
      simp only [hin] at h
      exact alive s1 (by rw [o1]) rfl (by rw [o1]) (by rw [o1]) (by rw [o1]) h.symm
    | some i =>
      obtain ⟨ret, er'⟩ := i
      simp only [hin] at h
      by_cases hr : ret < 0
      · simp only [hr, if_true] at h
        cases h
        have hd := qDestroy_perm b (St.fini { s1 with inits := s1.inits + 1 } e) q s.open_ p2 (by simp only [St.fini]; cases e.fini <;> simpa using p1)
        refine ⟨?_, by simp, fun _ => ⟨hd.1, ?_, fun _ => ?_, fun hn => absurd hst hn⟩⟩ <;>
          (simp only [qEnd]; rw [hd.2]; simp only [St.fini]; cases e.fini <;> simp only [Bool.false_eq_true, if_true, if_false, Bool.toNat_false, Bool.toNat_true, Nat.add_zero] <;> rw [o1])
      · simp only [hr, if_false] at h
        exact alive { s1 with inits := s1.inits + 1 } (by rw [o1]) rfl (by rw [o1]) (by rw [o1]) (by rw [o1]) h.symm

structure Inv (b : Backend) (w : World) : Prop where
  ok : w.s.bad = false
  thr : w.s.thr = w.live.length
  handles : w.s.open_.Perm (w.live.flatMap (fun x => x.1.handles))
  efd : ∀ x ∈ w.live, b ≠ .epoll → x.1.efd = none

theorem init_inv (b : Backend) : Inv b World.init := ⟨rfl, rfl, List.Perm.refl _, by simp [World.init]⟩

/-- The call does not lose a descriptor. -/
def Fine : Op → Prop
  | .create e flags _ _ => ¬ Leaks e flags
  | .destroy _ _ => True

theorem destroy_spec (b : Backend) (e : Env) (s : St) (q : Q) (L : List Nat) (hq : b ≠ .epoll → q.efd = none) (hp : s.open_.Perm (q.handles ++ L)) :
    (destroy b e s q).open_.Perm L ∧ (destroy b e s q).bad = s.bad ∧ (destroy b e s q).thr = s.thr - 1 ∧ (destroy b e s q).finis = s.finis + e.fini.toNat := by
  have hd := qDestroy_perm b (s.fini e) q L hq (by simp only [St.fini]; cases e.fini <;> simpa using hp)
  refine ⟨hd.1, ?_, ?_, ?_⟩ <;> (simp only [destroy, qEnd]; rw [hd.2]; simp only [St.fini]; cases e.fini <;> simp)

theorem step_inv (b : Backend) (w w' : World) (o : Op) (hf : Fine o) (hi : Inv b w) (h : step b w o = some w') : Inv b w' := by
  cases o with
  | create e flags pri max =>
    simp only [step] at h
    generalize hk : create b e flags pri max w.s = k at h
    obtain ⟨r, s⟩ := k
    obtain ⟨k1, k2, k3⟩ := create_spec b e flags pri max w.s hf r s hk
    cases r with
    | none =>
      simp only [Option.some.injEq] at h; subst h
      obtain ⟨g1, g2, _⟩ := k3 rfl
      exact ⟨k1.trans hi.ok, g2.trans hi.thr, g1.trans hi.handles, hi.efd⟩
    | some q =>
      simp only [Option.some.injEq] at h; subst h
      obtain ⟨g1, g2, g3, _⟩ := k2 q rfl
      refine ⟨k1.trans hi.ok, by simp [g3, hi.thr], ?_, ?_⟩
      · simpa using g1.trans (hi.handles.append_left _)
      · intro x hx; rcases List.mem_cons.1 hx with rfl | hx
        · exact g2
        · exact hi.efd x hx
  | destroy q e =>
    simp only [step] at h
    split at h
    · rename_i hm
      simp only [Option.some.injEq] at h; subst h
      have hp := hi.handles.trans ((List.perm_cons_erase hm).flatMap_right _)
      simp only [List.flatMap_cons] at hp
      obtain ⟨g1, g2, g3, _⟩ := destroy_spec b e w.s q _ (hi.efd _ hm) hp
      refine ⟨g2.trans hi.ok, ?_, g1, fun x hx => hi.efd x (List.mem_of_mem_erase hx)⟩
      rw [g3, hi.thr, List.length_erase_of_mem hm]
    · cases h

theorem run_inv (b : Backend) : ∀ (os : List Op) (w w' : World), (∀ o ∈ os, Fine o) → Inv b w → run b w os = some w' → Inv b w' := by
  intro os
  induction os with
  | nil => intro w w' _ hi h; cases h; exact hi
  | cons o os ih =>
    intro w w' hf hi h
    simp only [run] at h
    split at h
    · cases h
    · rename_i w1 h1
      exact ih w1 w' (fun x hx => hf x (List.mem_cons_of_mem _ hx)) (step_inv b w w1 o (hf o List.mem_cons_self) hi h1) h

/-- C193, except for the failure `Leaks`: after any history of calls that make and destroy queues, whatever failed in them, nothing has been given back that was not there, as many threads run as there
are queues, and the blocks, descriptors, locks and ids there are are exactly those of these queues. -/
theorem C193_histories_partial (b : Backend) (os : List Op) (w : World) (hf : ∀ o ∈ os, Fine o) (h : run b World.init os = some w) :
    w.s.bad = false ∧ w.s.thr = w.live.length ∧ w.s.open_.Perm (w.live.flatMap (fun x => x.1.handles)) := by
  have hi := run_inv b os _ w hf (init_inv b) h
  exact ⟨hi.ok, hi.thr, hi.handles⟩

/-- C193, except for the failure `Leaks`: a call that fails leaves everything as it was. -/
theorem C193_failed_partial (b : Backend) (e : Env) (flags : Nat) (pri max : Int) (s : St) (hl : ¬ Leaks e flags) (s' : St) (h : create b e flags pri max s = (none, s')) :
    s'.open_.Perm s.open_ ∧ s'.thr = s.thr ∧ s'.bad = s.bad := by
  obtain ⟨k1, _, k3⟩ := create_spec b e flags pri max s hl none s' h
  exact ⟨(k3 rfl).1, (k3 rfl).2.1, k1⟩

/-- C193: with every step succeeding the call gives a queue; it owns its wake-up pair, or its event. -/
theorem C193_made (b : Backend) (e : Env) (flags : Nat) (pri max : Int) (s : St) (hs : Starts e flags pri max) (hm : e.qmem = true) (he : e.efd = true) (hev : e.ev = true)
    (hp : e.pipe = .pipe true ∨ e.pipe = .sockets true true true true) (h0 : e.nb0 = true) (h1 : e.nb1 = true) (ha : e.act = true) (hid : e.id = none) (hin : ∀ r x, e.init = some (r, x) → 0 ≤ r) :
    ∃ q s', create b e flags pri max s = (some q, s') ∧ (q.efd.isSome ↔ b = .epoll) ∧ (q.event.isSome ↔ flags.testBit 1 = true) ∧ (q.piper.isSome ↔ flags.testBit 1 = false) ∧
      (q.pipew.isSome ↔ flags.testBit 1 = false) ∧ q.lock.isSome ∧ q.cond.isSome ∧ q.qid.isSome := by
  obtain ⟨g1, g2, g3, g4, g5, g6⟩ := hs
  have c1 : ¬ flags / 65536 ≠ 0 := by have := Nat.div_eq_of_lt g1; omega
  have c2 : ¬ (max < 1 ∨ max > MAX) := by unfold MAX; omega
  have c3 : ¬ (pri < 0 ∨ pri > 5) := by omega
  have key : ∃ q s' er, qCreate b e (flags.testBit 1) s = (some q, s', er) ∧ (q.efd.isSome ↔ b = .epoll) ∧ (q.event.isSome ↔ flags.testBit 1 = true) ∧ (q.piper.isSome ↔ flags.testBit 1 = false) ∧
      (q.pipew.isSome ↔ flags.testBit 1 = false) ∧ q.lock.isSome ∧ q.cond.isSome ∧ q.qid.isSome := by
    cases flags.testBit 1 <;> cases b <;> rcases hp with hp | hp <;> simp [qCreate, hm, mpInit, initSigp, initPipe, hp, osPipe, he, hev, h0, h1, ha, hid, St.make]
  obtain ⟨q, s1, er, hq, hrest⟩ := key
  simp only [create, if_neg c1, if_neg c2, if_neg c3, g6, entry, hq]
  cases hi : e.init with
  | none => exact ⟨_, _, rfl, hrest⟩
  | some i =>
    obtain ⟨r, x⟩ := i
    have := hin r x hi
    have hr : ¬ r < 0 := by omega
    simp only [Bool.not_true, Bool.false_eq_true, if_false, if_neg hr]
    exact ⟨_, _, rfl, hrest⟩

/-- C193 is false of the code where a queue is woken up by sockets: whenever the second one cannot be made the call fails and the first one stays open. -/
theorem C193_leak (b : Backend) (e : Env) (flags : Nat) (pri max : Int) (s : St) (hs : Starts e flags pri max) (hm : e.qmem = true) (he : e.efd = true) (hl : Leaks e flags) :
    ∃ s', create b e flags pri max s = (none, s') ∧ s'.open_.length = s.open_.length + 1 := by
  obtain ⟨g1, g2, g3, g4, g5, g6⟩ := hs
  obtain ⟨l1, c, l2⟩ := hl
  have c1 : ¬ flags / 65536 ≠ 0 := by have := Nat.div_eq_of_lt g1; omega
  have c2 : ¬ (max < 1 ∨ max > MAX) := by unfold MAX; omega
  have c3 : ¬ (pri < 0 ∨ pri > 5) := by omega
  have key : ∃ s' er, qCreate b e false s = (none, s', er) ∧ s'.open_.length = s.open_.length + 1 := by
    cases b <;> cases hn : e.nmem <;>
      simp [qCreate, hm, hn, mpInit, initSigp, initPipe, l2, osPipe, he, St.make, finiSigp, finiPub, St.dropO, freeObj, St.drop, List.erase_cons] <;> (repeat' split) <;> first | (simp; done) | omega | (exfalso; omega)
  obtain ⟨s1, er, hq, hlen⟩ := key
  simp only [create, if_neg c1, if_neg c2, if_neg c3, g6, entry, l1, hq]
  refine ⟨_, rfl, ?_⟩
  simp only [St.fini]; cases e.fini <;> simpa using hlen

/-! ## C194: a call that fails says why -/

/-- C194 where it holds: with an allowed priority, memory for the queue, and a wake-up pair (or event) to be had, a call that fails leaves a number other than 0 in aosl_errno – provided that a failing
init callback does. -/
theorem C194_says_why_partial (b : Backend) (e : Env) (flags : Nat) (pri max : Int) (s s' : St) (hp : 0 ≤ pri ∧ pri ≤ 5) (hm : e.qmem = true) (hev : flags.testBit 1 = true → e.ev = true)
    (hpi : flags.testBit 1 = false → e.pipe = .pipe true ∨ e.pipe = .sockets true true true true) (hid : ∀ x, e.id = some x → x ≠ 0) (hin : ∀ r x, e.init = some (r, x) → r < 0 → x ≠ 0)
    (h : create b e flags pri max s = (none, s')) : s'.errno ≠ 0 := by
  have c3 : ¬ (pri < 0 ∨ pri > 5) := by omega
  have n1 : EINVAL ≠ 0 := by decide
  have n2 : EHAL ≠ 0 := by decide
  simp only [create, if_neg c3] at h
  by_cases c1 : flags / 65536 ≠ 0
  · rw [if_pos c1] at h; cases h; exact n1
  rw [if_neg c1] at h
  by_cases c2 : max < 1 ∨ max > MAX
  · rw [if_pos c2] at h; cases h; exact n1
  rw [if_neg c2] at h
  by_cases c4 : (!e.thread) = true
  · rw [if_pos c4] at h; cases h; exact n2
  rw [if_neg c4] at h
  have key : ∀ s1 er, qCreate b e (flags.testBit 1) s = (none, s1, er) → er ≠ 0 := by
    intro s1 er hq
    have mp : ∀ s2 q r s3 q3 er3, mpInit b e (flags.testBit 1) s2 q 0 = (r, s3, q3, er3) → r = false → er3 ≠ 0 := by
      intro s2 q r s3 q3 er3 hq hr
      have sg : ∀ s2 q r s3 q3 er3, initSigp b e (flags.testBit 1) s2 q 0 = (r, s3, q3, er3) → r = false → er3 ≠ 0 := by
        intro s2 q r s3 q3 er3 hq hr
        cases ht : flags.testBit 1 with
        | true => rw [ht] at hq; simp [initSigp, hev ht] at hq; rw [hq.1] at hr; cases hr
        | false =>
          rw [ht] at hq
          rcases hpi ht with hpi | hpi <;>
          · simp only [initSigp, Bool.false_eq_true, if_false, initPipe, hpi, osPipe, Bool.not_true] at hq
            repeat' split at hq
            all_goals
              simp only [Prod.mk.injEq] at hq
              obtain ⟨rfl, rfl, rfl, rfl⟩ := hq
              first | exact n2 | cases hr
      cases b with
      | poll => exact sg _ _ _ _ _ _ hq hr
      | select => exact sg _ _ _ _ _ _ hq hr
      | epoll =>
        simp only [mpInit] at hq
        split at hq
        · cases hq; exact n2
        · split at hq
          · cases hq; cases hr
          · rename_i h3; cases hq; exact sg _ _ _ _ _ _ h3 rfl
    simp only [qCreate, hm, Bool.not_true, Bool.false_eq_true, if_false] at hq
    split at hq
    · rename_i h3; cases hq; exact mp _ _ _ _ _ _ h3 rfl
    · split at hq
      · rename_i x hx; cases hq; exact hid _ hx
      · cases hq
  simp only [entry] at h
  generalize hk : qCreate b e (flags.testBit 1) s = k at h
  obtain ⟨r0, s1, er⟩ := k
  cases r0 with
  | none => simp only [Prod.mk.injEq] at h; obtain ⟨_, rfl⟩ := h; exact key _ _ hk
  | some q =>
    cases hi : e.init with
    | none => simp [hi] at h
    | some i =>
      obtain ⟨r, x⟩ := i
      by_cases hr : r < 0
      · simp only [hi, hr, if_true, Prod.mk.injEq] at h; obtain ⟨_, rfl⟩ := h; exact hin r x hi hr
      · simp [hi, hr] at h

/-- C194 is false of the code: a priority that is not allowed makes the call fail and changes nothing at all, aosl_errno included… -/
theorem C194_priority (b : Backend) (e : Env) (flags : Nat) (pri max : Int) (s : St) (hf : flags < 65536) (hm : 1 ≤ max ∧ max ≤ 1000000) (hp : pri < 0 ∨ 5 < pri) : create b e flags pri max s = (none, s) := by
  have c1 : ¬ flags / 65536 ≠ 0 := by have := Nat.div_eq_of_lt hf; omega
  have c2 : ¬ (max < 1 ∨ max > MAX) := by unfold MAX; omega
  have c3 : pri < 0 ∨ pri > 5 := by omega
  simp only [create, if_neg c1, if_neg c2, if_pos c3]

/-- …and when there is no memory for the queue, no wake-up pair or no event the call fails and even sets aosl_errno to 0. -/
theorem C194_silent (b : Backend) (e : Env) (flags : Nat) (pri max : Int) (s : St) (hs : Starts e flags pri max) (he : e.efd = true)
    (h : e.qmem = false ∨ (flags.testBit 1 = true ∧ e.ev = false) ∨ (flags.testBit 1 = false ∧ e.pipe = .pipe false)) :
    ∃ s', create b e flags pri max s = (none, s') ∧ s'.errno = 0 := by
  obtain ⟨g1, g2, g3, g4, g5, g6⟩ := hs
  have c1 : ¬ flags / 65536 ≠ 0 := by have := Nat.div_eq_of_lt g1; omega
  have c2 : ¬ (max < 1 ∨ max > MAX) := by unfold MAX; omega
  have c3 : ¬ (pri < 0 ∨ pri > 5) := by omega
  have key : ∃ s', qCreate b e (flags.testBit 1) s = (none, s', 0) := by
    cases hm : e.qmem with
    | false => exact ⟨_, by simp [qCreate, hm]; rfl⟩
    | true =>
      rcases h with h | ⟨h1, h2⟩ | ⟨h1, h2⟩
      · rw [hm] at h; cases h
      · rw [h1]; cases b <;> exact ⟨_, by simp [qCreate, hm, mpInit, initSigp, h2, he]; rfl⟩
      · rw [h1]; cases b <;> exact ⟨_, by simp [qCreate, hm, mpInit, initSigp, initPipe, osPipe, h2, he]; rfl⟩
  obtain ⟨s1, hq⟩ := key
  simp only [create, if_neg c1, if_neg c2, if_neg c3, g6, entry, hq]
  exact ⟨_, rfl, rfl⟩

/-! ## C195: fini for every attempt -/

/-- C195 where it holds: when the call gets as far as making the queue, fini is called once: before the call returns if it fails, and when the queue ends otherwise. -/
theorem C195_fini_partial (b : Backend) (e : Env) (flags : Nat) (pri max : Int) (s : St) (hl : ¬ Leaks e flags) (hs : Starts e flags pri max) (he : e.fini = true) :
    (∀ s', create b e flags pri max s = (none, s') → s'.finis = s.finis + 1) ∧
    (∀ q s' t, create b e flags pri max s = (some q, s') → ∀ L, t.open_.Perm (q.handles ++ L) → s'.finis = s.finis ∧ (destroy b e t q).finis = t.finis + 1) := by
  constructor
  · intro s' h
    obtain ⟨_, _, k⟩ := create_spec b e flags pri max s hl none s' h
    have := (k rfl).2.2.1 hs
    simpa [he] using this
  · intro q s' t h L hL
    obtain ⟨_, k, _⟩ := create_spec b e flags pri max s hl (some q) s' h
    obtain ⟨_, k2, _, k4, _⟩ := k q rfl
    have := (destroy_spec b e t q L k2 hL).2.2.2
    exact ⟨k4, by simpa [he] using this⟩

/-- C195 is false of the code: a call that fails because of its arguments, or because no thread can be started, does not call fini. -/
theorem C195_not_called (b : Backend) (e : Env) (flags : Nat) (pri max : Int) (s s' : St) (hl : ¬ Leaks e flags) (hs : ¬ Starts e flags pri max) (h : create b e flags pri max s = (none, s')) : s'.finis = s.finis := by
  obtain ⟨_, _, k⟩ := create_spec b e flags pri max s hl none s' h
  exact (k rfl).2.2.2 hs

def good : Env := ⟨true, true, true, true, .pipe true, true, true, true, true, none, some (0, 0), true⟩

/-- A queue, one whose pipe cannot be watched, one with an event; the first one is destroyed. -/
example : (run .epoll World.init [.create good 0 2 100, .create { good with act := false } 0 0 100, .create good 2 0 5]).map (fun w => (w.s.open_.length, w.s.thr, w.live.length, w.s.finis, w.s.errno)) =
    some (15, 2, 2, 1, 1000) := by decide +kernel
example : (run .select World.init [.create { good with pipe := .sockets true true false true } 0 2 100]).map (fun w => (w.s.open_, w.s.thr, w.s.errno)) = some ([2], 0, 0) := by decide +kernel
example : (create .poll { good with init := some (-1, 7) } 0 2 100 World.init.s).2 = ⟨[], 7, false, 1, 1, 0, 7⟩ := by decide +kernel
example : (create .epoll good 0 6 100 World.init.s) = (none, World.init.s) := by decide +kernel
example : Starts good 0 2 100 ∧ ¬ Leaks good 0 := by constructor <;> simp [Starts, Leaks, good]

/-- Flags outside 16 bits and a size outside 1 to 1000000 are refused with AOSL_EINVAL (22 above the base) and nothing is made; a thread that cannot be made gives AOSL_EHAL. -/
theorem C194_codes (b : Backend) (e : Env) (flags : Nat) (pri max : Int) (s : St) :
    (65536 ≤ flags ∨ max < 1 ∨ 1000000 < max → create b e flags pri max s = (none, { s with errno := 22 })) ∧
    (flags < 65536 → 1 ≤ max ∧ max ≤ 1000000 → 0 ≤ pri ∧ pri ≤ 5 → e.thread = false → create b e flags pri max s = (none, { s with errno := 1000 })) := by
  refine ⟨?_, ?_⟩
  · intro h
    unfold create MAX
    by_cases c : flags / 65536 ≠ 0
    · rw [if_pos c]; rfl
    · rw [if_neg c, if_pos (by omega)]; rfl
  · intro h1 h2 h3 h4
    unfold create MAX
    rw [if_neg (by omega), if_neg (by omega), if_neg (by omega), if_pos (by simp [h4])]
    rfl

/-- Giving back a handle that is not open is seen by the histories: `bad` is their "used after being given back". -/
theorem C193_twice (s : St) (h : Nat) (hn : h ∉ s.open_) : (s.drop h).bad = true := by
  unfold St.drop; rw [if_neg hn]


end Verif.QMake
