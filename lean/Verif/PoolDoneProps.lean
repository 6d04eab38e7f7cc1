import Verif.PoolDone

/-!
# C233: the function of a pool tail call and its completion
-/

namespace Verif.PoolDone

/-! ## Specification -/

/-- What may have happened with the function when all queues are through: it was invoked once, with the words given; and if there is a
done queue and the invocation was not one that only frees, then it was queued to the done queue once for the same object, or invoked once
more to free if there is no such queue any more. -/
def Outcome (c : Call) (log : List Ev) : Prop :=
  ∃ o, log.head? = some (.invoked o c.argv) ∧
    ((c.hasDone = false ∨ o = .freeOnly) → log.tail = []) ∧
    (c.hasDone = true → o ≠ .freeOnly → log.tail = [.queuedDone (refOf o) c.argv] ∨ log.tail = [.invoked .freeOnly c.argv])

/-- C233: whatever the order of the queues' steps: no memory is used after it was freed, or freed twice; the function is not invoked
before every queue of the pool has come to the promise; and when all are through the outcome is right and nothing is left. -/
def Right (c : Call) (s : St) : Prop :=
  s.bad = false ∧ s.cntFreed ≤ 1 ∧ s.nameFreed ≤ 1 ∧ (s.log ≠ [] → .wait ∉ s.pcs) ∧
    ((∀ p ∈ s.pcs, p = .fin) → Outcome c s.log ∧ s.cntFreed = 1 ∧ s.nameFreed = if c.name then 1 else 0)

/-! ## Proof -/

/-- What is known of the state from where the last queue stands. -/
def Stage (c : Call) (s : St) : Pc → Prop
  | .wait => False
  | .last _ => s.cntFreed = 0 ∧ s.nameFreed = 0 ∧ s.log = []
  | .invoke _ => s.cntFreed = 1 ∧ s.nameFreed = 0 ∧ s.log = []
  | .complete o => s.cntFreed = 1 ∧ s.nameFreed = 0 ∧ s.log = [.invoked o c.argv]
  | .free => s.cntFreed = 1 ∧ s.nameFreed = 0 ∧ Outcome c s.log
  | .fin => s.cntFreed = 1 ∧ s.nameFreed = (if c.name then 1 else 0) ∧ Outcome c s.log

/-- The invariant: nobody was the last yet, or one was and the others are through. -/
def Inv (c : Call) (s : St) : Prop :=
  s.bad = false ∧
  ((s.cnt = (s.pcs.count .wait : Nat) ∧ 0 < s.pcs.count .wait ∧ (∀ p ∈ s.pcs, p = .wait ∨ p = .fin) ∧ s.cntFreed = 0 ∧
      s.nameFreed = 0 ∧ s.log = []) ∨
   (∃ k st, k < s.pcs.length ∧ s.pcs[k]? = some st ∧ (∀ (j : Nat) p, s.pcs[j]? = some p → j ≠ k → p = .fin) ∧ Stage c s st))

theorem inv_init (c : Call) (h : 0 < c.n) : Inv c (init c) := by
  refine ⟨rfl, .inl ⟨by simp [init], by simp [init, h], ?_, rfl, rfl, rfl⟩⟩
  intro p hp
  simp [init] at hp
  exact .inl hp.2

theorem count_set (l : List Pc) (i : Nat) (x : Pc) (h : l[i]? = some .wait) (hx : x ≠ .wait) :
    (l.set i x).count .wait + 1 = l.count .wait := by
  induction l generalizing i with
  | nil => simp at h
  | cons a t ih =>
    cases i with
    | zero =>
      simp at h; subst h
      have : (x == Pc.wait) = false := by simpa using hx
      simp [List.count_cons, this]
    | succ i =>
      simp at h
      have := ih i h
      simp only [List.set_cons_succ, List.count_cons]
      omega

theorem stage_step {c : Call} {s s' : St} {k : Nat} {st : Pc} (o : Obj) (b : Bool) (hb : s.bad = false) (hk : s.pcs[k]? = some st)
    (hst : Stage c s st) (h : step c s k o b = some s') :
    s'.bad = false ∧ ∃ st', s'.pcs = s.pcs.set k st' ∧ Stage c s' st' := by
  cases st with
  | wait => exact hst.elim
  | last o' =>
    simp only [step, hk, Option.some.injEq] at h; subst h
    exact ⟨hb, _, rfl, by simpa [Stage] using hst⟩
  | invoke o' =>
    simp only [step, hk, Option.some.injEq] at h; subst h
    simp only [Stage] at hst
    exact ⟨by simp [hb, hst.2.1], _, rfl, by simp [Stage, hst]⟩
  | complete o' =>
    simp only [Stage] at hst
    simp only [step, hk] at h
    split at h
    · rename_i hd
      simp only [Option.some.injEq] at h; subst h
      refine ⟨by simp [hb, hst.2.1], _, rfl, hst.1, hst.2.1, o', by simp [hst.2.2], ?_, ?_⟩
      · rintro (h | h)
        · simp [h] at hd
        · exact absurd h hd.2
      · intro _ _
        cases b <;> simp [hst.2.2]
    · rename_i hd
      simp only [Option.some.injEq] at h; subst h
      refine ⟨hb, _, rfl, hst.1, hst.2.1, o', by simp [hst.2.2], ?_, ?_⟩
      · intro _; simp [hst.2.2]
      · intro h1 h2; exact absurd ⟨h1, h2⟩ hd
  | free =>
    simp only [step, hk, Option.some.injEq] at h; subst h
    simp only [Stage] at hst
    exact ⟨hb, _, rfl, hst.1, by simp [hst.2.1], hst.2.2⟩
  | fin => simp [step, hk] at h

theorem inv_step (c : Call) (s s' : St) (i : Nat) (o : Obj) (b : Bool) (hi : Inv c s) (h : step c s i o b = some s') : Inv c s' := by
  obtain ⟨hb, ⟨h1, h2, h3, h4, h5, h6⟩ | ⟨k, st, hk, hg, ho, hs⟩⟩ := hi
  · cases hp : s.pcs[i]? with
    | none => simp [step, hp] at h
    | some p =>
      have hm : p ∈ s.pcs := List.mem_of_getElem? hp
      rcases h3 p hm with rfl | rfl
      · have hlen : i < s.pcs.length := (List.getElem?_eq_some_iff.1 hp).1
        simp only [step, hp, Option.some.injEq] at h
        subst h
        by_cases hz : s.cnt - 1 = 0
        · have hc := count_set s.pcs i (.last o) hp (by simp)
          refine ⟨by simp [hb, h4], .inr ⟨i, .last o, by simpa using hlen, by simp [hlen, hz], ?_, h4, h5, h6⟩⟩
          intro j q hq hj
          simp only [hz, if_true] at hq
          rw [List.getElem?_set_ne (Ne.symm hj)] at hq
          rcases h3 q (List.mem_of_getElem? hq) with rfl | rfl
          · exfalso
            have : Pc.wait ∈ s.pcs.set i (.last o) := List.mem_of_getElem? (i := j) (by rw [List.getElem?_set_ne (Ne.symm hj)]; exact hq)
            have := List.count_pos_iff.2 this
            omega
          · rfl
        · have hc := count_set s.pcs i .fin hp (by simp)
          refine ⟨by simp [hb, h4], .inl ⟨by simp only [hz, if_false]; omega, by simp only [hz, if_false]; omega, ?_, h4, h5, h6⟩⟩
          intro q hq
          simp only [hz, if_false] at hq
          rcases List.mem_or_eq_of_mem_set hq with hq | hq
          · exact h3 q hq
          · exact .inr hq
      · simp [step, hp] at h
  · by_cases hik : i = k
    · subst hik
      obtain ⟨g1, st', g2, g3⟩ := stage_step o b hb hg hs h
      refine ⟨g1, .inr ⟨i, st', by rw [g2]; simpa using hk, by rw [g2]; simp [hk], ?_, g3⟩⟩
      intro j q hq hj
      rw [g2, List.getElem?_set_ne (Ne.symm hj)] at hq
      exact ho j q hq hj
    · exfalso
      cases hp : s.pcs[i]? with
      | none => simp [step, hp] at h
      | some p =>
        have := ho i p hp hik
        subst this
        simp [step, hp] at h

theorem inv_run (c : Call) (as : List (Nat × Obj × Bool)) (s s' : St) (hi : Inv c s) (h : run c s as = some s') : Inv c s' := by
  induction as generalizing s with
  | nil => simp [run] at h; subst h; exact hi
  | cons a as ih =>
    obtain ⟨i, o, b⟩ := a
    simp only [run] at h
    cases hs : step c s i o b with
    | none => simp [hs] at h
    | some s1 => simp [hs] at h; exact ih s1 (inv_step c s s1 i o b hi hs) h

/-- C233 in full: for every pool with a queue, every function, every object its reference leads to, and every order of the steps. -/
theorem C233 (c : Call) (hn : 0 < c.n) (as : List (Nat × Obj × Bool)) (s : St) (h : run c (init c) as = some s) : Right c s := by
  obtain ⟨hb, ⟨h1, h2, h3, h4, h5, h6⟩ | ⟨k, st, hk, hg, ho, hs⟩⟩ := inv_run c as _ s (inv_init c hn) h
  · refine ⟨hb, by omega, by omega, fun hl => absurd h6 hl, ?_⟩
    intro hall
    have hm := List.count_pos_iff.1 h2
    have := hall _ hm
    simp at this
  · have hw : .wait ∉ s.pcs := by
      intro hm
      obtain ⟨j, hj⟩ := List.mem_iff_getElem?.1 hm
      by_cases hjk : j = k
      · subst hjk; rw [hg] at hj; simp at hj; subst hj; exact hs.elim
      · have := ho j _ hj hjk; simp at this
    refine ⟨hb, ?_, ?_, fun _ => hw, ?_⟩
    · cases st <;> simp only [Stage] at hs <;> omega
    · cases st <;> simp only [Stage] at hs <;> try omega
      rw [hs.2.1]; split <;> omega
    · intro hall
      have hf := hall st (List.mem_of_getElem? hg)
      subst hf
      exact ⟨hs.2.2, hs.1, hs.2.1⟩

/-- And it comes to that: while a queue is not through, it can make a step, and every step brings the end nearer. -/
def weight : Pc → Nat
  | .wait => 5
  | .last _ => 4
  | .invoke _ => 3
  | .complete _ => 2
  | .free => 1
  | .fin => 0

theorem weight_set (l : List Pc) (i : Nat) (x y : Pc) (h : l[i]? = some x) :
    ((l.set i y).map weight).sum + weight x = (l.map weight).sum + weight y := by
  induction l generalizing i with
  | nil => simp at h
  | cons a t ih =>
    cases i with
    | zero => simp at h; subst h; simp; omega
    | succ i =>
      simp at h
      have := ih i h
      simp only [List.set_cons_succ, List.map_cons, List.sum_cons]
      omega

theorem C233_ends (c : Call) (s : St) (i : Nat) (o : Obj) (b : Bool) :
    (∀ p, s.pcs[i]? = some p → p ≠ .fin → (step c s i o b).isSome = true) ∧
    ∀ s', step c s i o b = some s' → (s'.pcs.map weight).sum < (s.pcs.map weight).sum := by
  constructor
  · intro p hp hne
    cases p <;> simp [step, hp] at hne ⊢
    split <;> rfl
  · intro s' h
    cases hp : s.pcs[i]? with
    | none => simp [step, hp] at h
    | some p =>
      have key := fun y => weight_set s.pcs i p y hp
      cases p <;> simp only [step, hp] at h
      · simp only [Option.some.injEq] at h; subst h
        by_cases hz : s.cnt - 1 = 0
        · have := key (.last o); simp only [weight, hz, if_true] at this ⊢; omega
        · have := key .fin; simp only [weight, hz, if_false] at this ⊢; omega
      · rename_i o'
        simp only [Option.some.injEq] at h; subst h
        have := key (.invoke o'); simp only [weight] at this ⊢; omega
      · rename_i o'
        simp only [Option.some.injEq] at h; subst h
        have := key (.complete o'); simp only [weight] at this ⊢; omega
      · split at h <;> simp only [Option.some.injEq] at h <;> subst h <;>
          (have := key .free; simp only [weight] at this ⊢; omega)
      · simp only [Option.some.injEq] at h; subst h
        have := key .fin; simp only [weight] at this ⊢; omega
      · simp at h

/-- The completion goes where the done queue is: queued to it as long as it is there, invoked with the mark to free when it has gone. -/
def Placed (c : Call) (b : Bool) (s : St) : Prop :=
  (b = true → ∀ ev ∈ s.log.tail, ∃ r, ev = .queuedDone r c.argv) ∧ (b = false → ∀ ev ∈ s.log, ∃ o, ev = .invoked o c.argv)

theorem tail_append {α} (l : List α) (x ev : α) (h : ev ∈ (l ++ [x]).tail) : ev ∈ l.tail ∨ (ev = x ∧ l ≠ []) := by
  cases l with
  | nil => simp at h
  | cons a t => simp at h ⊢; exact h

theorem placed_step (c : Call) (s s' : St) (i : Nat) (o : Obj) (b : Bool) (hi : Inv c s) (hp : Placed c b s) (h : step c s i o b = some s') : Placed c b s' := by
  cases hpc : s.pcs[i]? with
  | none => simp [step, hpc] at h
  | some p =>
    cases p <;> simp only [step, hpc, Option.some.injEq] at h
    · subst h; exact hp
    · subst h; exact hp
    · rename_i o'
      have hl : s.log = [] := by
        rcases hi.2 with ⟨_, _, h3, _, _, h6⟩ | ⟨k, st, _, hg, ho, hs⟩
        · exact h6
        · by_cases hik : i = k
          · subst hik; rw [hpc] at hg; cases hg; exact hs.2.2
          · have := ho i _ hpc hik; simp at this
      subst h
      constructor
      · intro _ ev hev; simp [hl] at hev
      · intro _ ev hev; simp [hl] at hev; exact ⟨o', hev⟩
    · rename_i o'
      split at h <;> simp only [Option.some.injEq] at h <;> subst h
      · constructor
        · intro hb ev hev
          rcases tail_append _ _ _ hev with hev | ⟨hev, _⟩
          · exact hp.1 hb ev hev
          · exact ⟨_, by rw [hev, hb]; rfl⟩
        · intro hb ev hev
          simp only [List.mem_append, List.mem_singleton] at hev
          rcases hev with hev | hev
          · exact hp.2 hb ev hev
          · exact ⟨.freeOnly, by rw [hev, hb]; rfl⟩
      · exact hp
    · subst h; exact hp
    · simp at h

/-- C233, where the completion goes: if the done queue is there all the time, whatever follows the invocation is queued to it; if it has
gone all the time, nothing is queued and the function is invoked instead. -/
theorem C233_done_queue (c : Call) (hn : 0 < c.n) (b : Bool) (as : List (Nat × Obj × Bool)) (hb : ∀ a ∈ as, a.2.2 = b) (s : St)
    (h : run c (init c) as = some s) : Placed c b s := by
  have key : ∀ (as : List (Nat × Obj × Bool)) (s0 : St), (∀ a ∈ as, a.2.2 = b) → Inv c s0 → Placed c b s0 → run c s0 as = some s → Placed c b s := by
    intro as
    induction as with
    | nil => intro s0 _ _ hp h; simp [run] at h; exact h ▸ hp
    | cons a as ih =>
      obtain ⟨i, o, b'⟩ := a
      intro s0 hb hi hp h
      have : b' = b := hb _ List.mem_cons_self
      subst this
      simp only [run] at h
      cases hs : step c s0 i o b' with
      | none => simp [hs] at h
      | some s1 =>
        simp [hs] at h
        exact ih s1 (fun a ha => hb a (List.mem_cons_of_mem _ ha)) (inv_step c s0 s1 i o b' hi hs) (placed_step c s0 s1 i o b' hi hp hs) h
  exact key as _ hb (inv_init c hn) ⟨fun _ _ h => by simp [init] at h, fun _ _ h => by simp [init] at h⟩ h

/-- Three queues, a done queue: the second queue is the last; the others go first, with other objects. -/
example : (run ⟨3, true, true, [8, 9]⟩ (init ⟨3, true, true, [8, 9]⟩)
      [(0, .null, true), (2, .freeOnly, true), (1, .obj 4, true), (1, .null, true), (1, .null, true), (1, .null, true), (1, .null, true)]).map
      (fun s => (s.log, s.cntFreed, s.nameFreed, s.pcs)) =
    some ([.invoked (.obj 4) [8, 9], .queuedDone (some 4) [8, 9]], 1, 1, [.fin, .fin, .fin]) := by decide

/-- The done queue has gone; and an object that has gone: no completion. -/
example : (run ⟨1, true, false, [8]⟩ (init ⟨1, true, false, [8]⟩)
      [(0, .null, true), (0, .null, true), (0, .null, true), (0, .null, false), (0, .null, true)]).map (fun s => (s.log, s.nameFreed)) =
      some ([.invoked .null [8], .invoked .freeOnly [8]], 0) ∧
    (run ⟨1, true, false, [8]⟩ (init ⟨1, true, false, [8]⟩)
      [(0, .freeOnly, true), (0, .null, true), (0, .null, true), (0, .null, true), (0, .null, true)]).map (·.log) =
      some [.invoked .freeOnly [8]] := by decide

/-- The done queue is there all the time, and a run with a completion. -/
example : (∀ a ∈ [((0 : Nat), Obj.obj 4, true), (0, .null, true), (0, .null, true), (0, .null, true)], a.2.2 = true) ∧
    (run ⟨1, true, false, [8]⟩ (init ⟨1, true, false, [8]⟩) [(0, .obj 4, true), (0, .null, true), (0, .null, true), (0, .null, true)]).map (fun s => s.log.tail) =
      some [.queuedDone (some 4) [8]] := by decide

end Verif.PoolDone
