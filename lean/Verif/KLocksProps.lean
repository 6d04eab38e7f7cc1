import Verif.KLocks
/-
  C56, C57, C58, C94, C95: k_rwlock, k_event, k_static_lock (kernel/thread.c) and the condition variable of
  lib/cond.c.
-/
namespace Verif.KLocks

/-! ## C56, C94: upgrade of a read lock -/
namespace Rw

/-- Positions at which the thread holds `lk`. -/
def hasLk : PC → Bool
  | .wTry => true | .holdW _ => true | .wUnl => true | .up2 => true | .up3 => true | .up4 => true
  | .dn1 => true | .dn2 => true | .dn3 => true
  | _ => false

/-- Positions from which the thread still relies on what it read. -/
def stable : PC → Bool
  | .holdR => true | .up1 => true | .up2 => true | .up3 => true | .up4 => true
  | .dn1 => true | .dn2 => true | .dn3 => true
  | _ => false

structure Inv (s : St) : Prop where
  lk : ∀ i, s.lk = some i ↔ hasLk (s.pc i) = true
  ex : ∀ i j, rawW (s.pc i) = true → j ≠ i → rawW (s.pc j) = false ∧ rawR (s.pc j) = false
  snap : ∀ i, stable (s.pc i) = true → s.snap i = s.ver

theorem inv_init : Inv St.init := by constructor <;> simp [St.init, hasLk, rawW, stable]

theorem inv_step {s s' : St} (h : Inv s) (hs : Step s s') : Inv s' := by
  obtain ⟨h1, h2, h3⟩ := h
  have lkuniq : ∀ i j, hasLk (s.pc i) = true → hasLk (s.pc j) = true → i = j := by
    intro i j hi hj
    have a := (h1 i).mpr hi; have b := (h1 j).mpr hj; grind
  cases hs with
  | upAbort i h hl hf ha => exact ⟨h1, h2, h3⟩
  | wtryOk i h hw ha =>
    refine ⟨?_, ?_, ?_⟩
    · intro j; have := h1 j; simp only [upd]; grind [hasLk]
    · intro a b; simp only [upd]; have := hw a; have := hw b; grind [rawW, rawR]
    · intro j; simp only [upd]; intro hj
      have hji : j ≠ i := by intro hh; subst hh; simp [stable] at hj
      rw [if_neg hji] at hj
      exfalso
      have hu := lkuniq j i
      have hr := (hw j).2
      rw [h] at hu
      revert hj hr hu
      cases s.pc j <;> simp [stable, rawR, hasLk, hji]
  | upAcq i h hw ha =>
    refine ⟨?_, ?_, ?_⟩
    · intro j; have := h1 j; simp only [upd]; grind [hasLk]
    · intro a b; simp only [upd]; have := hw a; have := hw b; grind [rawW, rawR]
    · intro j; simp only [upd]; intro hj
      have hji : j ≠ i := by intro hh; subst hh; simp [stable] at hj
      rw [if_neg hji] at hj
      exfalso
      have hu := lkuniq j i
      have hr := (hw j).2
      rw [h] at hu
      revert hj hr hu
      cases s.pc j <;> simp [stable, rawR, hasLk, hji]
  | rdlock i h hw ha =>
    refine ⟨?_, ?_, ?_⟩
    · intro j; have := h1 j; simp only [upd]; grind [hasLk]
    · intro a b; simp only [upd]; have := hw a; have := h2 a b; grind [rawW, rawR]
    · intro j; have := h3 j; simp only [upd]; grind [stable]
  | downAcq i h hw ha =>
    refine ⟨?_, ?_, ?_⟩
    · intro j; have := h1 j; simp only [upd]; grind [hasLk]
    · intro a b; simp only [upd]; have := hw a; have := h2 a b; grind [rawW, rawR]
    · intro j; have := h3 j; simp only [upd]; grind [stable]
  | _ =>
    refine ⟨?_, ?_, ?_⟩
    · intro j; have := h1 j; simp only [upd]; grind [hasLk]
    · intro a b; have := h2 a b; simp only [upd]; grind [rawW, rawR]
    · intro j; have := h3 j; simp only [upd]; grind [stable]

theorem inv_reach {s : St} (h : Reach s) : Inv s := by
  induction h with
  | init => exact inv_init
  | step _ hs ih => exact inv_step ih hs

/-- C56.  From the moment thread `i` holds its read lock until its k_rwlock_rd2wrlock obtains the write lock,
    the number of write lock acquisitions in the system does not change: at every point in between it is what
    it was when the read lock was obtained. -/
theorem C56_upgrade_atomic (s : St) (h : Reach s) (i : Nat)
    (hi : s.pc i = .holdR ∨ s.pc i = .up1 ∨ s.pc i = .up2 ∨ s.pc i = .up3 ∨ s.pc i = .up4) :
    s.snap i = s.ver := by
  apply (inv_reach h).snap i
  rcases hi with hi | hi | hi | hi | hi <;> rw [hi] <;> rfl

/-- In particular no other thread holds the write lock at any such point. -/
theorem C56_no_writer (s : St) (h : Reach s) (i j : Nat) (hij : j ≠ i)
    (hi : s.pc i = .holdR ∨ s.pc i = .up1 ∨ s.pc i = .up2 ∨ s.pc i = .up3 ∨ s.pc i = .up4) (u : Bool) :
    s.pc j ≠ .holdW u := by
  have hI := inv_reach h
  intro hj
  rcases hi with hi | hi | hi | hi | hi
  all_goals first
    | (have := (hI.ex j i (by rw [hj]; rfl) (Ne.symm hij)).2; rw [hi] at this; simp [rawR] at this; done)
    | (have a := (hI.lk i).mpr (by rw [hi]; rfl)
       have b := (hI.lk j).mpr (by rw [hj]; rfl)
       rw [a] at b; simp at b; exact hij b.symm)

/-- The same for the way back: between the write section and the read section of k_rwlock_wr2rdlock. -/
theorem C56_downgrade_atomic (s : St) (h : Reach s) (i : Nat)
    (hi : s.pc i = .dn1 ∨ s.pc i = .dn2 ∨ s.pc i = .dn3) : s.snap i = s.ver := by
  apply (inv_reach h).snap i
  rcases hi with hi | hi | hi <;> rw [hi] <;> rfl

/-- Writers and readers of the combined lock exclude each other. -/
theorem C56_exclusion (s : St) (h : Reach s) (i j : Nat) (u : Bool) (hij : j ≠ i) (hi : s.pc i = .holdW u) :
    (∀ v, s.pc j ≠ .holdW v) ∧ s.pc j ≠ .holdR := by
  have := (inv_reach h).ex i j (by rw [hi]; rfl) hij
  constructor
  · intro v hv; rw [hv] at this; simp [rawW] at this
  · intro hv; rw [hv] at this; simp [rawR] at this

/-- Thread 0 in the middle of an upgrade while thread 1 still reads, after an earlier write by thread 1. -/
example : ∃ s, Reach s ∧ s.pc 0 = .up4 ∧ s.pc 1 = .holdR ∧ s.ver = 1 := by
  have r0 := Reach.init
  have r1 := r0.step (.wrlock 1 rfl rfl rfl)
  have r2 := r1.step (.wtryOk 1 rfl (by intro j; simp [upd, St.init]; split <;> simp [rawW, rawR]) rfl)
  have r3 := r2.step (.wrunlock 1 false rfl rfl)
  have r4 := r3.step (.wrunlock2 1 rfl rfl)
  have r5 := r4.step (.rdlock 0 rfl (by intro j; simp [upd, St.init]; split <;> simp [rawW]) rfl)
  have r6 := r5.step (.rdlock 1 rfl (by intro j; simp only [upd, St.init]; grind [rawW]) rfl)
  have r7 := r6.step (.up 0 rfl rfl)
  have r8 := r7.step (.upLk 0 rfl rfl rfl)
  have r9 := r8.step (.upFlag 0 rfl rfl)
  have r10 := r9.step (.upRel 0 rfl rfl)
  exact ⟨_, r10, rfl, rfl, rfl⟩

/-- The thread is between its call of rd2wrlock and the end of the matching wr2rdlock. -/
def upgrading : PC → Bool
  | .up1 => true | .up2 => true | .up3 => true | .up4 => true | .holdW true => true
  | .dn1 => true | .dn2 => true | .dn3 => true
  | _ => false

/-- C94 is false: with only one thread ever upgrading, the upgrade can abort the process.  Thread 0 upgrades
    and releases with wrunlock (which does not clear rd2wrlock_count); later it upgrades again while thread 1
    is between the lock and the unlock of `lk` in k_rwlock_wrlock. -/
theorem C94_abort : ∃ s, Reach s ∧ s.aborted = true ∧ ∀ j, j ≠ 0 → upgrading (s.pc j) = false := by
  have r0 := Reach.init
  have r1 := r0.step (.rdlock 0 rfl (by intro j; simp [rawW, St.init]) rfl)
  have r2 := r1.step (.up 0 rfl rfl)
  have r3 := r2.step (.upLk 0 rfl rfl rfl)
  have r4 := r3.step (.upFlag 0 rfl rfl)
  have r5 := r4.step (.upRel 0 rfl rfl)
  have r6 := r5.step (.upAcq 0 rfl (by intro j; simp [upd, St.init]; split <;> simp [rawW, rawR]) rfl)
  have r7 := r6.step (.wrunlock 0 true rfl rfl)
  have r8 := r7.step (.wrunlock2 0 rfl rfl)
  have r9 := r8.step (.rdlock 0 rfl (by intro j; simp [upd, St.init]; split <;> simp [rawW]) rfl)
  have r10 := r9.step (.wrlock 1 rfl rfl rfl)
  have r11 := r10.step (.up 0 rfl rfl)
  have r12 := r11.step (.upAbort 0 rfl (by simp) rfl rfl)
  refine ⟨_, r12, rfl, ?_⟩
  intro j hj
  simp only [upd]
  rw [if_neg hj]
  by_cases h1 : j = 1
  · simp [h1, upgrading]
  · simp [h1, hj, St.init, upgrading]

/-- Runs in which a thread that upgraded gives the write lock back with wr2rdlock. -/
inductive ReachD : St → Prop where
  | init : ReachD St.init
  | step {s s'} (h : ReachD s) (hs : Step s s')
      (hd : ∀ i, s.pc i = .holdW true → s'.pc i ≠ .wUnl) : ReachD s'

/-- C94, the part that holds: if upgraded locks are given back with wr2rdlock, the process aborts only when a
    second thread tries to upgrade while another one is between rd2wrlock and wr2rdlock. -/
theorem C94_partial (s s' : St) (h : ReachD s) (hs : Step s s') (hab : s.aborted = false)
    (hab' : s'.aborted = true) :
    ∃ i j, i ≠ j ∧ upgrading (s.pc i) = true ∧ upgrading (s.pc j) = true := by
  have key : s.flag = true → ∃ i, s.pc i = .up3 ∨ s.pc i = .up4 ∨ s.pc i = .holdW true ∨ s.pc i = .dn1 ∨ s.pc i = .dn2 := by
    clear hs hab hab' s'
    have hmain : Inv s ∧ (s.flag = true →
        ∃ i, s.pc i = .up3 ∨ s.pc i = .up4 ∨ s.pc i = .holdW true ∨ s.pc i = .dn1 ∨ s.pc i = .dn2) := by
      induction h with
      | init => exact ⟨inv_init, by simp [St.init]⟩
      | @step s s' h hs hd ih =>
        refine ⟨inv_step ih.1 hs, ?_⟩
        obtain ⟨hI, ih⟩ := ih
        intro hf
        cases hs with
        | upFlag i h ha => exact ⟨i, by simp [upd]⟩
        | downFlag i h ha => simp at hf
        | upAbort i h hl hf' ha => exact ih hf
        | upRel i h ha => exact ⟨i, by simp [upd]⟩
        | upAcq i h hw ha => exact ⟨i, by simp [upd]⟩
        | downAcq i h hw ha => exact ⟨i, by simp [upd]⟩
        | down i u h ha => exact ⟨i, by simp [upd]⟩
        | wrunlock i u h ha =>
          obtain ⟨j, hj⟩ := ih hf
          refine ⟨j, ?_⟩
          simp only [upd]
          by_cases hji : j = i
          · subst hji
            have := hd j
            simp only [upd, if_true] at this
            rw [h] at hj; simp at hj
            subst hj
            exact absurd rfl (this h)
          · rw [if_neg hji]; exact hj
        | rdlock i h =>
          obtain ⟨j, hj⟩ := ih hf
          refine ⟨j, ?_⟩
          have : j ≠ i := by intro hh; subst hh; simp [h] at hj
          simpa [upd, this] using hj
        | rdunlock i h =>
          obtain ⟨j, hj⟩ := ih hf
          refine ⟨j, ?_⟩
          have : j ≠ i := by intro hh; subst hh; simp [h] at hj
          simpa [upd, this] using hj
        | wrlock i h =>
          obtain ⟨j, hj⟩ := ih hf
          refine ⟨j, ?_⟩
          have : j ≠ i := by intro hh; subst hh; simp [h] at hj
          simpa [upd, this] using hj
        | wtryOk i h =>
          obtain ⟨j, hj⟩ := ih hf
          refine ⟨j, ?_⟩
          have : j ≠ i := by intro hh; subst hh; simp [h] at hj
          simpa [upd, this] using hj
        | wtryFail i h =>
          obtain ⟨j, hj⟩ := ih hf
          refine ⟨j, ?_⟩
          have : j ≠ i := by intro hh; subst hh; simp [h] at hj
          simpa [upd, this] using hj
        | wrunlock2 i h =>
          obtain ⟨j, hj⟩ := ih hf
          refine ⟨j, ?_⟩
          have : j ≠ i := by intro hh; subst hh; simp [h] at hj
          simpa [upd, this] using hj
        | up i h =>
          obtain ⟨j, hj⟩ := ih hf
          refine ⟨j, ?_⟩
          have : j ≠ i := by intro hh; subst hh; simp [h] at hj
          simpa [upd, this] using hj
        | upLk i h =>
          obtain ⟨j, hj⟩ := ih hf
          refine ⟨j, ?_⟩
          have : j ≠ i := by intro hh; subst hh; simp [h] at hj
          simpa [upd, this] using hj
        | downLk i h =>
          obtain ⟨j, hj⟩ := ih hf
          refine ⟨j, ?_⟩
          have : j ≠ i := by intro hh; subst hh; simp [h] at hj
          simpa [upd, this] using hj
    exact hmain.2
  cases hs with
  | upAbort i h hl hf ha =>
    obtain ⟨j, hj⟩ := key hf
    refine ⟨i, j, ?_, by rw [h]; rfl, ?_⟩
    · intro hh; subst hh; simp [h] at hj
    · rcases hj with hj | hj | hj | hj | hj <;> rw [hj] <;> rfl
  | _ => simp_all

end Rw

/-! ## C57: events -/
namespace Event

/-- C57 is false: a pulse takes the "set" away.  After set and pulse, one wait passes and the next blocks
    although nobody called reset (aosl_thread.h:259-260 promises the contrary). -/
theorem C57_set_lost : ∃ s, run St.init [.set, .pulse, .wait, .wait] = some s ∧ s.blocked = 1 ∧ s.sets = 1 :=
  ⟨_, rfl, rfl, rfl⟩

/-- C57 is false: one pulse lets two waits through (a blocked one and one that arrives before the blocked
    thread has run). -/
theorem C57_pulse_two : ∃ s, run St.init [.wait, .pulse, .wait, .wake] = some s ∧ s.pulses = 1 ∧ s.sets = 0 ∧
    s.returned = 2 := ⟨_, rfl, rfl, rfl, rfl⟩

/-- C57 is false if the condition variable may wake spuriously: the wait returns without set or pulse. -/
theorem C57_spurious : ∃ s, run St.init [.wait, .spurious, .wake] = some s ∧ s.pulses = 0 ∧ s.sets = 0 ∧
    s.returned = 1 := ⟨_, rfl, rfl, rfl, rfl⟩

/-- aosl_thread.h:266 documents pulse as waking all waiting threads; it wakes one. -/
theorem C57_pulse_not_all : ∃ s, run St.init [.wait, .wait, .pulse] = some s ∧ s.blocked = 1 ∧ s.woken = 1 :=
  ⟨_, rfl, rfl, rfl⟩

theorem run_append (s : St) (l1 l2 : List Op) : run s (l1 ++ l2) = (run s l1).bind fun s' => run s' l2 := by
  induction l1 generalizing s with
  | nil => rfl
  | cons o l ih =>
    simp only [List.cons_append, run]
    cases step s o with
    | none => rfl
    | some s' => simp [ih]

theorem set_no_blocked_step {s s' : St} {o : Op} (h : s.result = .set → s.blocked = 0) (hs : step s o = some s') :
    s'.result = .set → s'.blocked = 0 := by
  cases o <;> simp only [step] at hs
  all_goals (repeat' split at hs)
  all_goals first | (simp at hs; done) | (cases hs; grind)

theorem set_no_blocked {s s' : St} {l : List Op} (h : s.result = .set → s.blocked = 0) (hr : run s l = some s') :
    s'.result = .set → s'.blocked = 0 := by
  induction l generalizing s with
  | nil => cases hr; exact h
  | cons o l ih =>
    simp only [run] at hr
    cases hs : step s o with
    | none => simp [hs] at hr
    | some s1 => rw [hs] at hr; exact ih (set_no_blocked_step h hs) hr

/-- C57, the part about set that holds: after a set, as long as nobody calls reset or pulse, no thread is
    blocked, the event stays set, and every wait returns at once. -/
theorem C57_set_partial (l1 l2 : List Op) (s : St) (hl : ∀ o ∈ l2, o ≠ .reset ∧ o ≠ .pulse)
    (hr : run St.init (l1 ++ [.set] ++ l2) = some s) :
    s.result = .set ∧ s.blocked = 0 ∧ step s .wait = some { s with returned := s.returned + 1 } := by
  have hb := set_no_blocked (s := St.init) (by simp [St.init]) hr
  have hset : s.result = .set := by
    rw [run_append, run_append] at hr
    cases h1 : run St.init l1 with
    | none => simp [h1] at hr
    | some s1 =>
      simp only [h1, Option.bind_some] at hr
      cases h2 : run s1 [.set] with
      | none => simp [h2] at hr
      | some s2 =>
        simp only [h2, Option.bind_some] at hr
        have hs2 : s2.result = .set := by
          simp only [run, step] at h2
          split at h2 <;> simp at h2 <;> subst h2 <;> simp_all
        clear h2 h1 hb
        induction l2 generalizing s2 with
        | nil => cases hr; exact hs2
        | cons o l ih =>
          simp only [run] at hr
          cases h3 : step s2 o with
          | none => simp [h3] at hr
          | some s3 =>
            rw [h3] at hr
            refine ih (fun o ho => hl o (by simp [ho])) s3 hr ?_
            have ho := hl o (by simp)
            cases o <;> simp only [step] at h3 <;> (repeat' split at h3) <;> simp at h3 <;> simp_all <;> subst h3 <;> simp_all
  refine ⟨hset, hb hset, ?_⟩
  simp [step, hset]

/-- Ghost potential: how many more waits may return. -/
def pot (s : St) : Nat := s.woken + if s.result = .pulse then 1 else 0

theorem pulse_step {s s' : St} {o : Op} (h : s.returned + pot s ≤ 2 * s.pulses) (hne : s.result ≠ .set)
    (ho : o ≠ .set ∧ o ≠ .spurious) (hs : step s o = some s') :
    s'.returned + pot s' ≤ 2 * s'.pulses ∧ s'.result ≠ .set := by
  cases o <;> simp only [step] at hs
  all_goals (repeat' split at hs)
  all_goals first | (simp at hs; done) | (exact absurd rfl ho.1) | (exact absurd rfl ho.2) | skip
  all_goals cases hs
  all_goals simp only [pot] at *
  all_goals grind

/-- C57, the part about pulse that holds: without set, reset included, and without spurious wake-ups, n pulses
    let at most 2 n waits through; in particular no wait returns before the first pulse. -/
theorem C57_pulse_partial (l : List Op) (s : St) (hl : ∀ o ∈ l, o ≠ .set ∧ o ≠ .spurious)
    (hr : run St.init l = some s) : s.returned ≤ 2 * s.pulses := by
  have : ∀ (s0 : St) (l : List Op), s0.returned + pot s0 ≤ 2 * s0.pulses → s0.result ≠ .set →
      (∀ o ∈ l, o ≠ .set ∧ o ≠ .spurious) → run s0 l = some s → s.returned + pot s ≤ 2 * s.pulses := by
    intro s0 l
    induction l generalizing s0 with
    | nil => intro h _ _ hr; cases hr; exact h
    | cons o l ih =>
      intro h hne hl hr
      simp only [run] at hr
      cases hs : step s0 o with
      | none => simp [hs] at hr
      | some s1 =>
        rw [hs] at hr
        have := pulse_step h hne (hl o (by simp)) hs
        exact ih s1 this.1 this.2 (fun o ho => hl o (by simp [ho])) hr
  have := this St.init l (by decide) (by decide) hl hr
  omega

/-- The bound of C57_pulse_partial is met with equality by the run of C57_pulse_two. -/
example : ∃ s, run St.init [.wait, .pulse, .wait, .wake] = some s ∧ s.returned = 2 * s.pulses := ⟨_, rfl, rfl⟩

theorem single_step {s s' : St} {o : Op} (h : s.returned + (if 0 < s.woken ∨ s.result = .pulse then 1 else 0) ≤ s.pulses)
    (h1 : s.blocked + s.woken ≤ 1) (hne : s.result ≠ .set)
    (ho : o ≠ .set ∧ o ≠ .spurious) (hw : o = .wait → s.blocked + s.woken = 0) (hs : step s o = some s') :
    s'.returned + (if 0 < s'.woken ∨ s'.result = .pulse then 1 else 0) ≤ s'.pulses ∧
    s'.blocked + s'.woken ≤ 1 ∧ s'.result ≠ .set := by
  cases o <;> simp only [step] at hs
  all_goals (repeat' split at hs)
  all_goals first | (simp at hs; done) | (exact absurd rfl ho.1) | (exact absurd rfl ho.2) | skip
  all_goals cases hs
  all_goals grind

/-- Runs with a single waiting thread. -/
inductive ReachOne : St → Prop where
  | init : ReachOne St.init
  | step {s s'} (o : Op) (h : ReachOne s) (ho : o ≠ .set ∧ o ≠ .spurious)
      (hw : o = .wait → s.blocked + s.woken = 0) (hs : step s o = some s') : ReachOne s'

/-- C57 with one waiting thread: each pulse lets at most one wait through. -/
theorem C57_single_partial (s : St) (h : ReachOne s) : s.returned ≤ s.pulses := by
  have : s.returned + (if 0 < s.woken ∨ s.result = .pulse then 1 else 0) ≤ s.pulses ∧
      s.blocked + s.woken ≤ 1 ∧ s.result ≠ .set := by
    induction h with
    | init => decide
    | step o _ ho hw hs ih => exact single_step ih.1 ih.2.1 ih.2.2 ho hw hs
  split at this <;> omega

example : ∃ s, ReachOne s ∧ s.returned = 1 ∧ s.pulses = 1 :=
  ⟨_, .step .wake (.step .pulse (.step .wait .init (by decide) (by decide) rfl) (by decide) (by decide) rfl)
    (by decide) (by decide) rfl, rfl, rfl⟩

end Event

/-! ## C58: static lock -/
namespace StaticLock

structure Inv (s : St) : Prop where
  one : s.state = .initializing ↔ 1 ≤ s.initing + s.pubOk + s.pubErr
  le : s.initing + s.pubOk + s.pubErr ≤ 1
  ok : 0 < s.pubOk ∨ s.state = .initialized → s.mutex = true ∧ s.inits = 1
  no : s.pubOk = 0 → s.state ≠ .initialized → s.inits = 0 ∧ s.mutex = false

theorem inv_step {s s' : St} {o : Op} (h : Inv s) (hs : step s o = some s') : Inv s' := by
  obtain ⟨h1, h2, h3, h4⟩ := h
  cases o <;> simp only [step, St.retOk] at hs
  all_goals (repeat' split at hs)
  all_goals first | (simp at hs; done) | cases hs
  all_goals constructor <;> grind

theorem inv_run {s s' : St} {l : List Op} (h : Inv s) (hr : run s l = some s') : Inv s' := by
  induction l generalizing s with
  | nil => cases hr; exact h
  | cons o l ih =>
    simp only [run] at hr
    cases hs : step s o with
    | none => simp [hs] at hr
    | some s1 => rw [hs] at hr; exact ih (inv_step h hs) hr

theorem inv_init : Inv St.init := by constructor <;> decide

/-- C58, first half: however many threads race and however often the underlying initialisation fails, it
    succeeds at most once, and never two threads are inside it. -/
theorem C58_init_once (l : List Op) (s : St) (hr : run St.init l = some s) :
    s.inits ≤ 1 ∧ s.initing ≤ 1 ∧ (s.state = .initialized → s.mutex = true) := by
  have h := inv_run inv_init hr
  refine ⟨?_, by have := h.le; omega, fun hh => (h.ok (.inr hh)).1⟩
  by_cases h1 : 0 < s.pubOk ∨ s.state = .initialized
  · have := (h.ok h1).2; omega
  · have := (h.no (by omega) (fun hh => h1 (.inr hh))).1; omega

/-- C58, second half, is false: a thread that spun while another one's initialisation failed reports
    success, with the mutex not initialised. -/
theorem C58_false_success : ∃ s, run St.init [.call, .call, .halErr, .pubErr, .leave] = some s ∧
    s.falseOk = 1 ∧ s.mutex = false := ⟨_, rfl, rfl, rfl⟩

/-- C58, second half, when the underlying initialisation never fails: no call returns success with the mutex
    not initialised. -/
theorem C58_success_partial (l : List Op) (s : St) (hl : ∀ o ∈ l, o ≠ .halErr) (hr : run St.init l = some s) :
    s.falseOk = 0 := by
  have : ∀ (s0 : St) (l : List Op), Inv s0 → s0.falseOk = 0 → s0.pubErr = 0 → (0 < s0.spin → s0.state ≠ .uninit) →
      (∀ o ∈ l, o ≠ .halErr) → run s0 l = some s → s.falseOk = 0 := by
    intro s0 l
    induction l generalizing s0 with
    | nil => intro _ h _ _ _ hr; cases hr; exact h
    | cons o l ih =>
      intro hI h hp hsp hl hr
      simp only [run] at hr
      cases hs : step s0 o with
      | none => simp [hs] at hr
      | some s1 =>
        rw [hs] at hr
        have ho := hl o (by simp)
        have key : s1.falseOk = 0 ∧ s1.pubErr = 0 ∧ (0 < s1.spin → s1.state ≠ .uninit) := by
          have h3 := hI.ok; have h4 := hI.no
          cases o <;> simp only [step, St.retOk] at hs
          all_goals (repeat' split at hs)
          all_goals first | (simp at hs; done) | (exact absurd rfl ho) | cases hs
          all_goals (cases hst : s0.state <;> grind)
        exact ih s1 (inv_step hI hs) key.1 key.2.1 key.2.2 (fun o ho => hl o (by simp [ho])) hr
  exact this St.init l inv_init rfl rfl (by decide) hl hr

/-- Three threads, one initialises, one spins and returns success, one comes later. -/
example : ∃ s, run St.init [.call, .call, .halOk, .pubOk, .leave, .call] = some s ∧ s.okRet = 3 ∧ s.inits = 1 :=
  ⟨_, rfl, rfl, rfl⟩

end StaticLock

/-! ## C95: condition variable of lib/cond.c -/
namespace Cond

/-- C95 is false: two threads wait, two signals are sent, and one thread stays blocked (its semaphore is never
    posted): signal posts to the first thread in the list, which stays there until it runs. -/
theorem C95_signal_lost : ∃ s, run St.init [.wait 1, .wait 2, .signal, .signal, .leave 1] = some s ∧
    s.signals = 2 ∧ s.woken = [1] ∧ s.list = [⟨2, 0⟩] ∧ step s (.leave 2) = none := ⟨_, rfl, rfl, rfl, rfl, rfl⟩

/-- C95, what holds: a broadcast reaches every waiting thread. -/
theorem C95_broadcast_partial (s s' : St) (h : step s .broadcast = some s') :
    s'.list.map (·.id) = s.list.map (·.id) ∧ ∀ w ∈ s'.list, 0 < w.posts := by
  simp only [step] at h
  cases h
  constructor
  · simp [Function.comp_def]
  · intro w hw; simp at hw; obtain ⟨a, -, rfl⟩ := hw; simp

/-- C95, what holds: after a signal with a thread waiting, at least one waiting thread can go on. -/
theorem C95_signal_partial (s s' : St) (hne : s.list ≠ []) (h : step s .signal = some s') :
    ∃ w ∈ s'.list, ∃ s'', step s' (.leave w.id) = some s'' := by
  cases hl : s.list with
  | nil => exact absurd hl hne
  | cons w l =>
    simp only [step, hl] at h
    cases h
    exact ⟨_, List.mem_cons_self .., by simp [step]⟩

/-- C95, what holds: without signal and broadcast no thread leaves the wait. -/
theorem C95_no_spurious (l : List Op) (s : St) (hl : ∀ o ∈ l, o ≠ .signal ∧ o ≠ .broadcast)
    (hr : run St.init l = some s) : s.woken = [] := by
  have : ∀ (s0 : St) (l : List Op), s0.woken = [] → (∀ w ∈ s0.list, w.posts = 0) →
      (∀ o ∈ l, o ≠ .signal ∧ o ≠ .broadcast) → run s0 l = some s → s.woken = [] := by
    intro s0 l
    induction l generalizing s0 with
    | nil => intro h _ _ hr; cases hr; exact h
    | cons o l ih =>
      intro h hz hl hr
      simp only [run] at hr
      cases hs : step s0 o with
      | none => simp [hs] at hr
      | some s1 =>
        rw [hs] at hr
        have ho := hl o (by simp)
        have key : s1.woken = [] ∧ ∀ w ∈ s1.list, w.posts = 0 := by
          cases o with
          | wait id =>
            simp only [step] at hs
            split at hs
            · simp at hs
            · cases hs
              refine ⟨h, ?_⟩
              intro w hw; simp at hw
              rcases hw with hw | hw
              · exact hz w hw
              · subst hw; rfl
          | signal => exact absurd rfl ho.1
          | broadcast => exact absurd rfl ho.2
          | leave id =>
            simp only [step] at hs
            split at hs
            · rename_i w hf
              have := hz w (List.mem_of_find?_eq_some hf)
              rw [this] at hs; simp at hs
            · simp at hs
        exact ih s1 key.1 key.2 (fun o ho => hl o (by simp [ho])) hr
  exact this St.init l rfl (by simp [St.init]) hl hr

example : ∃ s, run St.init [.wait 1, .wait 2, .signal, .leave 1, .signal, .leave 2] = some s ∧ s.woken = [1, 2] :=
  ⟨_, rfl, rfl⟩

end Cond

end Verif.KLocks
