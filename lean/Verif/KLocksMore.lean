import Verif.KLocksProps

/-!
# More about events and the static lock: every call is accounted for (C57, C58)
-/
namespace Verif.KLocks

namespace Event

/-- number of calls of one kind in a history. Models no code of its own. -/
def calls (l : List Op) (o : Op) : Nat := l.countP (· == o)

theorem conserved_aux (s s' : St) (l : List Op) (h : run s l = some s') :
    s'.blocked + s'.woken + s'.returned = s.blocked + s.woken + s.returned + calls l .wait ∧
    s'.sets ≤ s.sets + calls l .set ∧ s'.pulses ≤ s.pulses + calls l .pulse := by
  induction l generalizing s with
  | nil => cases h; simp [calls]
  | cons o l ih =>
    simp only [run] at h
    cases hs : step s o with
    | none => simp [hs] at h
    | some s1 =>
      rw [hs] at h
      have := ih s1 h
      have key : s1.blocked + s1.woken + s1.returned = s.blocked + s.woken + s.returned + (if o = .wait then 1 else 0) ∧
          s1.sets ≤ s.sets + (if o = .set then 1 else 0) ∧ s1.pulses ≤ s.pulses + (if o = .pulse then 1 else 0) := by
        cases o <;> simp only [step] at hs
        all_goals (repeat' split at hs)
        all_goals first
          | (simp at hs; done)
          | (cases hs; simp; try omega)
      simp only [calls, List.countP_cons] at this ⊢
      cases o <;> simp at key ⊢ <;> omega

/-- No waiting thread is lost: at any time every call of wait has returned, is blocked, or has been
    released and is about to return. -/
theorem C57_conserved_partial (l : List Op) (s : St) (h : run St.init l = some s) :
    s.blocked + s.woken + s.returned = calls l .wait := by
  have := (conserved_aux St.init s l h).1
  simpa [St.init] using this

/-- A set releases every thread that waits: after it none is blocked, and all the waits made so far have
    returned or return without anybody's help. -/
theorem C57_set_releases_partial (l : List Op) (s : St) (h : run St.init (l ++ [.set]) = some s) :
    s.blocked = 0 ∧ s.woken + s.returned = calls l .wait ∧
    ∃ s', run s (List.replicate s.woken .wake) = some s' ∧ s'.returned = calls l .wait := by
  have hb := (C57_set_partial l [] s (by simp) (by simpa using h)).2.1
  have hc := C57_conserved_partial _ s h
  have hcalls : calls (l ++ [.set]) .wait = calls l .wait := by simp [calls]
  rw [hcalls] at hc
  refine ⟨hb, by omega, ?_⟩
  have aux : ∀ (n : Nat) (s : St), s.woken = n → ∃ s', run s (List.replicate n .wake) = some s' ∧ s'.returned = s.returned + n := by
    intro n
    induction n with
    | zero => intro s _; exact ⟨s, rfl, rfl⟩
    | succ n ih =>
      intro s hs
      obtain ⟨s', h1, h2⟩ := ih ({ s with woken := s.woken - 1, returned := s.returned + 1
                                          result := if s.result = .pulse then .none else s.result }) (by simp; omega)
      refine ⟨s', ?_, by rw [h2]; simp; omega⟩
      have : 0 < s.woken := by omega
      simp only [List.replicate_succ, run, step, this, if_true, Option.bind_some]
      exact h1
  obtain ⟨s', h1, h2⟩ := aux s.woken s rfl
  exact ⟨s', h1, by omega⟩

/-- A wait never returns before the event was set or pulsed (spurious wake-ups of the condition variable
    excluded): with neither call in the history, no wait has returned. -/
theorem C57_no_early_partial (l : List Op) (s : St) (h : run St.init l = some s)
    (hl : ∀ o ∈ l, o ≠ .set ∧ o ≠ .pulse ∧ o ≠ .spurious) : s.returned = 0 ∧ s.woken = 0 := by
  have : ∀ (s0 : St) (l : List Op), s0.returned = 0 → s0.woken = 0 → s0.result = .none →
      (∀ o ∈ l, o ≠ .set ∧ o ≠ .pulse ∧ o ≠ .spurious) → run s0 l = some s → s.returned = 0 ∧ s.woken = 0 := by
    intro s0 l
    induction l generalizing s0 with
    | nil => intro h1 h2 _ _ h; cases h; exact ⟨h1, h2⟩
    | cons o l ih =>
      intro h1 h2 h3 hl h
      have ho := hl o (by simp)
      simp only [run] at h
      cases o <;> simp_all [step]
      · exact ih ⟨.none, s0.blocked, 0, s0.pulses, s0.sets, 0⟩ rfl rfl rfl h
      · exact ih ⟨.none, s0.blocked + 1, 0, s0.pulses, s0.sets, 0⟩ rfl rfl rfl h
  exact this St.init l rfl rfl rfl hl h

example : ∃ s, run St.init [.wait, .wait, .wait, .set] = some s ∧ s.woken = 3 := ⟨_, rfl, rfl⟩

end Event

namespace StaticLock

/-- For the statements and proofs about the models imported; models no code of its own. -/
def calls (l : List Op) (o : Op) : Nat := l.countP (· == o)

theorem conserved_aux (s s' : St) (l : List Op) (h : run s l = some s') :
    s'.initing + s'.pubOk + s'.pubErr + s'.spin + s'.okRet + calls l .pubErr + calls l .giveUp =
      s.initing + s.pubOk + s.pubErr + s.spin + s.okRet + calls l .call ∧
    s'.inits = s.inits + calls l .halOk := by
  induction l generalizing s with
  | nil => cases h; simp [calls]
  | cons o l ih =>
    simp only [run] at h
    cases hs : step s o with
    | none => simp [hs] at h
    | some s1 =>
      rw [hs] at h
      have := ih s1 h
      have key : s1.initing + s1.pubOk + s1.pubErr + s1.spin + s1.okRet + (if o = .pubErr then 1 else 0) + (if o = .giveUp then 1 else 0) =
          s.initing + s.pubOk + s.pubErr + s.spin + s.okRet + (if o = .call then 1 else 0) ∧
          s1.inits = s.inits + (if o = .halOk then 1 else 0) := by
        cases o <;> simp only [step] at hs
        all_goals (repeat' split at hs)
        all_goals first
          | (simp at hs; done)
          | (cases hs; simp [St.retOk]; try omega)
      simp only [calls, List.countP_cons] at this ⊢
      cases o <;> simp at key ⊢ <;> omega

/-- Every call is accounted for: it is still inside, or it returned: with success, with the
    error of a failed initialisation, or with the time-out of the waiting loop. -/
theorem C58_conserved (l : List Op) (s : St) (h : run St.init l = some s) :
    s.initing + s.pubOk + s.pubErr + s.spin + s.okRet + calls l .pubErr + calls l .giveUp = calls l .call ∧
    s.inits = calls l .halOk := by
  have := conserved_aux St.init s l h
  simpa [St.init] using this

/-- Once the lock is initialised, it stays so and every call and every waiting thread gets success. -/
theorem C58_stays (l1 l2 : List Op) (s1 s2 : St) (h1 : run St.init l1 = some s1) (hi : s1.state = .initialized)
    (h2 : run s1 l2 = some s2) : s2.state = .initialized ∧ s2.mutex = true ∧ s2.inits = s1.inits ∧
      (∃ s3, step s2 .call = some s3 ∧ s3.okRet = s2.okRet + 1 ∧ s3.falseOk = s2.falseOk) ∧
      (0 < s2.spin → ∃ s3, step s2 .leave = some s3 ∧ s3.okRet = s2.okRet + 1 ∧ s3.falseOk = s2.falseOk) := by
  have hinv := inv_run inv_init h1
  have key : ∀ (s0 : St) (l : List Op), Inv s0 → s0.state = .initialized → run s0 l = some s2 →
      s2.state = .initialized ∧ s2.inits = s0.inits ∧ Inv s2 := by
    intro s0 l
    induction l generalizing s0 with
    | nil => intro hI hi h; cases h; exact ⟨hi, rfl, hI⟩
    | cons o l ih =>
      intro hI hi h
      simp only [run] at h
      cases hs : step s0 o with
      | none => simp [hs] at h
      | some s1 =>
        rw [hs] at h
        have hI1 : Inv s1 := inv_run hI (l := [o]) (by simp [run, hs])
        have hz : s0.initing = 0 ∧ s0.pubOk = 0 ∧ s0.pubErr = 0 := by
          have := hI.one
          rw [hi] at this
          simp at this
          omega
        have : s1.state = .initialized ∧ s1.inits = s0.inits := by
          cases o <;> simp only [step, hi] at hs
          all_goals (repeat' split at hs)
          all_goals first
            | (simp at hs; done)
            | (cases hs; simp_all [St.retOk]; try omega)
        obtain ⟨a, b, c⟩ := ih s1 hI1 this.1 h
        exact ⟨a, by omega, c⟩
  obtain ⟨a, b, c⟩ := key s1 l2 hinv hi h2
  have hm := (c.ok (.inr a)).1
  refine ⟨a, hm, b, ⟨s2.retOk, by simp [step, a], by simp [St.retOk], by simp [St.retOk, hm]⟩, ?_⟩
  intro hsp
  exact ⟨({ s2 with spin := s2.spin - 1 } : St).retOk, by simp [step, a, hsp], by simp [St.retOk], by simp [St.retOk, hm]⟩

example : ∃ s, run St.init [.call, .call, .halOk, .pubOk, .leave, .call] = some s ∧ s.okRet = 3 ∧ s.falseOk = 0 := ⟨_, rfl, rfl, rfl⟩

end StaticLock

end Verif.KLocks
