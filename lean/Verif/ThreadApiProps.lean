import Verif.ThreadApi
import Verif.KLocksProps
/-! # C133: results of try-locks and timed waits; C134: trywrlock blocks; C135: the start of a thread -/

namespace Verif.ThreadApi

/-! ## Specification: the documentation of include/api/aosl_thread.h -/

/-- "0 if acquired, <0 otherwise" -/
def Documented (ret : Int) (ok : Prop) : Prop := (ok → ret = 0) ∧ (¬ ok → ret < 0)

/-- Thread `t` owns the mutex. -/
def Owns (l : Lock) (t : Nat) : Prop := l = some (some t)

/-! ## C133 -/

/-- What aosl_lock_trylock really does: 1 and the lock, or 0 and nothing. -/
theorem C133_lock_result_partial (l : Lock) (t : Nat) (h : ¬ Owns l t) :
    ((lockTrylock l t).1 = 1 ∧ l = some none ∧ Owns (lockTrylock l t).2 t) ∨
    ((lockTrylock l t).1 = 0 ∧ (lockTrylock l t).2 = l ∧ ¬ Owns (lockTrylock l t).2 t) := by
  rcases l with _ | _ | o
  · right; refine ⟨rfl, rfl, h⟩
  · left; refine ⟨rfl, rfl, rfl⟩
  · right; refine ⟨rfl, rfl, h⟩

/-- The documented result of aosl_lock_trylock is never returned, neither with success nor with failure. -/
theorem C133_lock_inverted (l : Lock) (t : Nat) (h : ¬ Owns l t) :
    ¬ Documented (lockTrylock l t).1 (Owns (lockTrylock l t).2 t) := by
  intro hd
  rcases C133_lock_result_partial l t h with ⟨h1, _, h3⟩ | ⟨h1, _, h3⟩
  · have := hd.1 h3; omega
  · have := hd.2 h3; omega

example : ¬ Owns (some (some 1)) 0 ∧ (lockTrylock (some (some 1)) 0).1 = 0 ∧ (lockTrylock (some none) 0).1 = 1 := ⟨by simp [Owns], rfl, rfl⟩

/-- Threads that follow the documentation (0 means acquired) enter the critical section together. -/
theorem C133_two_inside : ∃ s, Cs.Reach (fun r => r == 0) s ∧ s.inside 0 = true ∧ s.inside 1 = true := by
  have r0 : Cs.Reach (fun r => r == 0) Cs.init := .init
  have r1 := r0.step (.try_ Cs.init 2 rfl)
  have r2 := r1.step (.try_ _ 0 rfl)
  have r3 := r2.step (.try_ _ 1 rfl)
  exact ⟨_, r3, rfl, rfl⟩

/-- Threads that take 1 for success exclude each other, whatever their number and schedule. -/
theorem C133_exclusion_partial (s : Cs) (h : Cs.Reach (fun r => r == 1) s) (t u : Nat) (ht : s.inside t = true) (hu : s.inside u = true) : t = u := by
  have inv : s.lock ≠ none ∧ ∀ j, s.inside j = true → Owns s.lock j := by
    clear ht hu
    induction h with
    | init => exact ⟨by simp [Cs.init], by intro j hj; simp [Cs.init] at hj⟩
    | step _ hs ih =>
      rename_i a b _
      cases hs with
      | try_ t' h' =>
        obtain ⟨lk, ins⟩ := a
        obtain ⟨ih0, ih⟩ := ih
        simp only at ih0 ih h'
        rcases lk with _ | _ | o
        · exact absurd rfl ih0
        · refine ⟨by simp [lockTrylock, pthreadTrylock], ?_⟩
          intro j hj
          by_cases e : j = t'
          · subst e; rfl
          · simp only [e, if_false] at hj
            exact absurd (ih j hj) (by simp [Owns])
        · refine ⟨by simp [lockTrylock, pthreadTrylock, EBUSY], ?_⟩
          intro j hj
          by_cases e : j = t'
          · subst e; simp [lockTrylock, pthreadTrylock, EBUSY] at hj
          · simp only [e, if_false] at hj
            have := ih j hj
            simpa [Owns, lockTrylock, pthreadTrylock, EBUSY] using this
      | leave t' h' =>
        refine ⟨by simp, ?_⟩
        intro j hj
        by_cases e : j = t'
        · simp [e] at hj
        · simp only [e, if_false] at hj
          have h1 := ih.2 j hj
          have h2 := ih.2 t' h'
          simp only [Owns] at h1 h2
          rw [h1] at h2
          exact absurd (Option.some.inj (Option.some.inj h2)) e
  have h1 := inv.2 t ht
  have h2 := inv.2 u hu
  simp only [Owns] at h1 h2
  rw [h1] at h2
  exact Option.some.inj (Option.some.inj h2)

example : ∃ s, Cs.Reach (fun r => r == 1) s ∧ s.inside 2 = true := ⟨_, Cs.Reach.init.step (.try_ Cs.init 2 rfl), rfl⟩

/-- aosl_rwlock_tryrdlock: 1 with the lock, 0 without; never as documented. -/
theorem C133_rd_inverted (count : Int) :
    ((rwTryrdlock count).1 = 1 ∧ (rwTryrdlock count).2 = count + 1 ∧ 0 ≤ count ∨ (rwTryrdlock count).1 = 0 ∧ (rwTryrdlock count).2 = count ∧ count < 0) ∧
    ¬ Documented (rwTryrdlock count).1 ((rwTryrdlock count).2 = count + 1) := by
  unfold rwTryrdlock Documented
  by_cases h : count ≥ 0 <;> simp [h] <;> omega

/-- aosl_rwlock_trywrlock: 1 with the lock, 0 without; never as documented. -/
theorem C133_wr_inverted (count : Int) (hb : count ≠ writeBias) :
    ((rwTrywrlock count).1 = 1 ∧ (rwTrywrlock count).2 = writeBias ∧ count = 0 ∨ (rwTrywrlock count).1 = 0 ∧ (rwTrywrlock count).2 = count ∧ count ≠ 0) ∧
    ¬ Documented (rwTrywrlock count).1 ((rwTrywrlock count).2 = writeBias) := by
  unfold rwTrywrlock Documented
  by_cases h : count = 0 <;> simp [h, hb]

example : (0 : Int) ≠ writeBias ∧ (rwTrywrlock 0).1 = 1 ∧ (rwTrywrlock 3).1 = 0 := by decide

/-- aosl_static_lock_trylock: 0 exactly if the lock was acquired, but a held lock is reported with a positive number. -/
theorem C133_static_partial (owner : Option Nat) (t : Nat) (h : owner ≠ some t) :
    ((staticTrylock owner t).1 = 0 ↔ (staticTrylock owner t).2 = some t) ∧
    (owner ≠ none → (staticTrylock owner t).1 = 16 ∧ (staticTrylock owner t).2 = owner ∧
      ¬ Documented (staticTrylock owner t).1 ((staticTrylock owner t).2 = some t)) := by
  rcases owner with _ | o
  · simp [staticTrylock, pthreadTrylock, returnErr]
  · have : o ≠ t := fun e => h (by rw [e])
    simp [staticTrylock, pthreadTrylock, returnErr, EBUSY, Documented, this]

/-- aosl_cond_timedwait and aosl_event_timedwait tell a time-out by a positive number, not a negative one. -/
theorem C133_timeout_positive :
    condTimedwait .timedOut = 110 ∧ ¬ Documented (condTimedwait .timedOut) False ∧
    ∀ timeo : Int, 0 ≤ timeo → eventTimedwait false timeo .timedOut = 110 := by
  refine ⟨rfl, ?_, ?_⟩
  · intro h; have := h.2 (by simp); simp [condTimedwait, ETIMEDOUT] at this
  · intro timeo h
    have : ¬ timeo < 0 := by omega
    simp [eventTimedwait, condTimedwait, ETIMEDOUT, this]

/-- A wait is reported with 0 exactly if it did not time out. -/
theorem C133_timed_partial (isSet : Bool) (timeo : Int) (w : Wait) (h : 0 ≤ timeo) :
    (condTimedwait w = 0 ↔ w = .signalled) ∧ (eventTimedwait isSet timeo w = 0 ↔ isSet = true ∨ w = .signalled) := by
  have : ¬ timeo < 0 := by omega
  cases w <;> cases isSet <;> simp [condTimedwait, eventTimedwait, ETIMEDOUT, this]

/-! ## C134: aosl_rwlock_trywrlock blocks while another thread holds the write lock -/

open Verif.KLocks.Rw in
/-- Steps during which thread `w` keeps the write lock. -/
inductive WhileHeld (w : Nat) : St → St → Prop where
  | refl (s) (u) (h : s.pc w = .holdW u) : WhileHeld w s s
  | step {s s' s''} (h : WhileHeld w s s') (hs : Verif.KLocks.Rw.Step s' s'') (u) (hw : s''.pc w = .holdW u) : WhileHeld w s s''

open Verif.KLocks.Rw in
/-- While `w` holds the write lock, no step takes thread `i` through the first line of k_rwlock_trywrlock: the call does not return before `w` releases the lock, however many steps the others make. -/
theorem C134_blocks (s s' : St) (h : Reach s) (w i : Nat) (hw : WhileHeld w s s') (hi : s.pc i = .idle) : s'.pc i ≠ .wTry := by
  have key : ∀ s', WhileHeld w s s' → Reach s' ∧ (∃ u, s'.pc w = .holdW u) ∧ s'.pc i ≠ .wTry := by
    intro s' hw
    induction hw with
    | refl u hu => exact ⟨h, ⟨u, hu⟩, by rw [hi]; simp⟩
    | step hh hs u hu ih =>
      obtain ⟨hr, ⟨u', hu'⟩, hne⟩ := ih
      refine ⟨hr.step hs, ⟨u, hu⟩, ?_⟩
      rename_i a b
      have hlk : a.lk = some w := ((inv_reach hr).lk w).2 (by rw [hu']; rfl)
      intro hc
      cases hs with
      | wrlock j hj hl ha => rw [hlk] at hl; cases hl
      | upAbort => exact hne hc
      | _ => simp only [upd] at hc; split at hc <;> first | exact absurd hc (by simp) | exact absurd hc hne
  exact (key s' hw).2.2

open Verif.KLocks.Rw in
/-- Thread 1 holds the write lock while thread 2 calls and thread 3 comes and goes. -/
example : ∃ s s', Reach s ∧ s.pc 2 = .idle ∧ WhileHeld 1 s s' := by
  have r0 := Reach.init
  have r1 := r0.step (.wrlock 1 rfl rfl rfl)
  have r2 := r1.step (.wtryOk 1 rfl (by intro j; simp [upd, St.init]; split <;> simp [rawW, rawR]) rfl)
  exact ⟨_, _, r2, rfl, .refl _ false rfl⟩

open Verif.KLocks.Rw in
/-- If no thread writes, upgrades or is trying to, the call returns after two steps of its own, with the lock exactly if nobody holds it (or it may fail for no reason). -/
theorem C134_prompt_partial (s : St) (i : Nat) (hi : s.pc i = .idle) (hl : s.lk = none) (ha : s.aborted = false) :
    ∃ s1, Verif.KLocks.Rw.Step s s1 ∧ s1.pc i = .wTry ∧ (∃ s2, Verif.KLocks.Rw.Step s1 s2 ∧ s2.pc i = .idle ∧ s2.lk = none ∧ ∀ j, s2.pc j = s.pc j) ∧
      (noneHeld s → ∃ s2, Verif.KLocks.Rw.Step s1 s2 ∧ s2.pc i = .holdW false) := by
  refine ⟨_, .wrlock i hi hl ha, by simp [upd], ⟨_, .wtryFail i (by simp [upd]) ha, by simp [upd], rfl, ?_⟩, ?_⟩
  · intro j
    simp only [upd]
    split
    · rename_i e; rw [e, hi]
    · rfl
  · intro hn
    refine ⟨_, .wtryOk i (by simp [upd]) ?_ ha, by simp [upd]⟩
    intro j
    simp only [upd]
    split
    · simp [rawW, rawR]
    · exact hn j

example : Verif.KLocks.Rw.Reach Verif.KLocks.Rw.St.init ∧ Verif.KLocks.Rw.St.init.pc 0 = .idle ∧ Verif.KLocks.Rw.St.init.lk = none := ⟨.init, rfl, rfl⟩

/-! ## C135: the start of a thread -/

namespace Start

structure Inv (arg : Nat) (fails : Bool) (s : St) : Prop where
  ub : s.ub = false
  own : s.owner = (if s.c = .check ∨ s.c = .unlock then some .creator else if s.t = .set ∨ s.t = .unlock then some .thread else none)
  excl : ¬ ((s.c = .check ∨ s.c = .unlock) ∧ (s.t = .set ∨ s.t = .unlock))
  done : s.done = true ↔ s.t = .unlock ∨ s.t = .entry ∨ s.t = .ended
  ret : (s.c = .unlock → s.done = true) ∧ (∀ r, s.c = .returned r → r = 0 ∧ s.done = true ∧ s.t ≠ .unlock)
  exists_ : s.t = .none ↔ s.c = .create ∨ fails = true
  taken : s.taken = (if s.t = .none ∨ s.t = .begin then Option.none else some arg)
  entries : s.entries = (if s.t = .ended then [arg] else [])
  slept : s.c = .waiting → s.done = false

theorem inv_reach (arg : Nat) (fails : Bool) (s : St) (h : Reach arg fails s) : Inv arg fails s := by
  induction h with
  | init => constructor <;> simp [St.init]
  | step _ hs ih =>
    obtain ⟨i1, i2, i3, i4, i5, i6, i7, i8, i9⟩ := ih
    rename_i a b _
    obtain ⟨c, t, owner, done, taken, entries, ub⟩ := a
    cases c <;> cases t <;> cases done <;> cases fails <;> simp at i1 i2 i3 i4 i5 i6 i7 i8 i9 <;>
      (cases hs <;> simp_all <;> constructor <;> simp_all [St.frame])

/-- If the OS can create the thread: the new thread never uses the creator's frame after its end, the entry function is called at most once and with the caller's argument, and the
creator returns 0 only when the thread has what it needs. -/
theorem C135_safe_partial (arg : Nat) (s : St) (h : Reach arg false s) :
    s.ub = false ∧ (s.entries = [] ∨ s.entries = [arg]) ∧
    ∀ r, s.c = .returned r → r = 0 ∧ s.taken = some arg ∧ (s.t = .entry ∨ s.t = .ended) := by
  have i := inv_reach arg false s h
  refine ⟨i.ub, ?_, ?_⟩
  · rw [i.entries]; split <;> simp
  · intro r hr
    obtain ⟨h1, h2, h3⟩ := i.ret.2 r hr
    have h4 : s.t = .entry ∨ s.t = .ended := by
      rcases i.done.1 h2 with h | h | h
      · exact absurd h h3
      · exact .inl h
      · exact .inr h
    refine ⟨h1, ?_, h4⟩
    rw [i.taken]
    rcases h4 with h4 | h4 <;> simp [h4]

/-- The step is a wake-up without a signal. -/
def Spurious (s s' : St) : Prop := s.c = .waiting ∧ s' = { s with c := .relock }

/-- A run: the states it goes through, with `k` spurious wake-ups among its `n` steps. -/
inductive Run (arg : Nat) (fails : Bool) : St → Nat → Nat → St → Prop where
  | nil (s) : Run arg fails s 0 0 s
  | step {s s' s'' n k} (h : Run arg fails s n k s') (hs : Step arg fails s' s'') (hn : ¬ Spurious s' s'') : Run arg fails s (n + 1) k s''
  | spurious {s s' s'' n k} (h : Run arg fails s n k s') (hs : Step arg fails s' s'') (hn : Spurious s' s'') : Run arg fails s (n + 1) (k + 1) s''

def crank : CPc → Nat
  | .create => 21 | .lock => 5 | .relock => 4 | .check => 3 | .waiting => 2 | .unlock => 1 | .returned _ => 0

def trank : TPc → Nat
  | .none => 0 | .begin => 5 | .lock => 4 | .set => 3 | .unlock => 2 | .entry => 1 | .ended => 0

def rank (s : St) : Nat := 3 * trank s.t + crank s.c

theorem rank_step (arg : Nat) (fails : Bool) (s s' : St) (hs : Step arg fails s s') (hn : ¬ Spurious s s') : rank s' < rank s := by
  obtain ⟨c, t, owner, done, taken, entries, ub⟩ := s
  cases hs
  case tSet h => cases c <;> simp_all [rank, crank, trank]
  all_goals simp_all [rank, crank, trank, Spurious]

/-- Starting a thread takes a bounded number of steps, apart from spurious wake-ups: every run has at most 21 steps plus 3 for each of these. -/
theorem C135_bounded (arg : Nat) (fails : Bool) (n k : Nat) (s : St) (h : Run arg fails St.init n k s) : n ≤ 21 + 3 * k := by
  suffices H : ∀ s0 n k s, Run arg fails s0 n k s → rank s + n ≤ rank s0 + 3 * k by
    have := H _ _ _ _ h
    have e : rank St.init = 21 := rfl
    omega
  intro s0 n k s h
  induction h with
  | nil => omega
  | step _ hs hn ih => have := rank_step _ _ _ _ hs hn; omega
  | spurious _ hs hn ih =>
    rename_i a b _ _ _
    have h1 : rank a = 3 * trank a.t + 2 := by rw [rank, hn.1]; rfl
    have h2 : rank b = 3 * trank a.t + 4 := by rw [hn.2]; rfl
    omega

/-- … and it does not stop before both are through: as long as the creator has not returned or the entry function was not called, a step other than a spurious wake-up is possible. -/
theorem C135_progress_partial (arg : Nat) (s : St) (h : Reach arg false s) :
    (s.c = .returned 0 ∧ s.entries = [arg]) ∨ ∃ s', Step arg false s s' ∧ ¬ Spurious s s' := by
  have i := inv_reach arg false s h
  obtain ⟨i1, i2, i3, i4, i5, i6, i7, i8, i9⟩ := i
  obtain ⟨c, t, owner, done, taken, entries, ub⟩ := s
  cases t with
  | none =>
    have : c = .create := by simpa using i6
    exact .inr ⟨_, .createOk _ this rfl, by simp [Spurious, this]⟩
  | begin => exact .inr ⟨_, .tBegin _ rfl, by simp [Spurious]⟩
  | set => exact .inr ⟨_, .tSet _ rfl, by simp [Spurious]⟩
  | unlock => exact .inr ⟨_, .tUnlock _ rfl, by simp [Spurious]⟩
  | entry => exact .inr ⟨_, .tEntry _ rfl, by simp [Spurious]⟩
  | lock =>
    cases c with
    | create => simp at i6
    | check => 
      cases done
      · exact .inr ⟨_, .cWait _ rfl rfl, by simp [Spurious]⟩
      · exact .inr ⟨_, .cDone _ rfl rfl, by simp [Spurious]⟩
    | unlock => exact .inr ⟨_, .cUnlock _ rfl, by simp [Spurious]⟩
    | returned r => exact .inr ⟨_, .tLock _ rfl (by simpa using i2), by simp [Spurious]⟩
    | lock => exact .inr ⟨_, .tLock _ rfl (by simpa using i2), by simp [Spurious]⟩
    | waiting => exact .inr ⟨_, .tLock _ rfl (by simpa using i2), by simp [Spurious]⟩
    | relock => exact .inr ⟨_, .tLock _ rfl (by simpa using i2), by simp [Spurious]⟩
  | ended =>
    cases c with
    | create => simp at i6
    | check => 
      cases done
      · exact .inr ⟨_, .cWait _ rfl rfl, by simp [Spurious]⟩
      · exact .inr ⟨_, .cDone _ rfl rfl, by simp [Spurious]⟩
    | unlock => exact .inr ⟨_, .cUnlock _ rfl, by simp [Spurious]⟩
    | returned r =>
      refine .inl ⟨?_, by simpa using i8⟩
      have := (i5.2 r rfl).1
      simp [this]
    | lock => exact .inr ⟨_, .cLock _ rfl (by simpa using i2), by simp [Spurious]⟩
    | waiting => simp_all
    | relock => exact .inr ⟨_, .cRelock _ rfl (by simpa using i2), by simp [Spurious]⟩

/-- If the OS cannot create the thread, the creator never returns: no failure is reported, the call (and with it aosl_mpq_create) blocks for ever. -/
theorem C135_hangs (arg : Nat) (s : St) (h : Reach arg true s) : (∀ r, s.c ≠ .returned r) ∧ s.entries = [] := by
  have i := inv_reach arg true s h
  have ht : s.t = .none := i.exists_.2 (.inr rfl)
  refine ⟨?_, ?_⟩
  · intro r hr
    have := i.done.1 (i.ret.2 r hr).2.1
    rw [ht] at this
    simp at this
  · rw [i.entries, ht]; rfl

/-- The creator waits although the thread does not exist. -/
example : ∃ s, Reach 7 true s ∧ s.c = .waiting := by
  have r0 : Reach 7 true St.init := .init
  have r1 := r0.step (.createFail _ rfl rfl)
  have r2 := r1.step (.cLock _ rfl rfl)
  exact ⟨_, r2.step (.cWait _ rfl rfl), rfl⟩

/-- A start in which the creator sleeps, is woken and returns while the entry function is being called. -/
example : ∃ s, Reach 7 false s ∧ s.c = .returned 0 ∧ s.t = .entry := by
  have r0 : Reach 7 false St.init := .init
  have r1 := r0.step (.createOk _ rfl rfl)
  have r2 := r1.step (.cLock _ rfl rfl)
  have r3 := r2.step (.cWait _ rfl rfl)
  have r4 := r3.step (.tBegin _ rfl)
  have r5 := r4.step (.tLock _ rfl rfl)
  have r6 := r5.step (.tSet _ rfl)
  have r7 := r6.step (.tUnlock _ rfl)
  have r8 := r7.step (.cRelock _ rfl rfl)
  have r9 := r8.step (.cDone _ rfl rfl)
  exact ⟨_, r9.step (.cUnlock _ rfl), rfl, rfl⟩

end Start

/-- After a successful aosl_rwlock_trywrlock no try-lock succeeds, however many (below 2^32 - 1) blocked callers have added themselves to the counter, and
the lower half of the counter says that one thread is active. -/
theorem C133_wr_excludes (k : Nat) (hk : k < 2 ^ 32 - 1) :
    (rwTrywrlock 0).1 = 1 ∧ rwTryrdlock ((rwTrywrlock 0).2 + k) = (0, (rwTrywrlock 0).2 + k) ∧ rwTrywrlock ((rwTrywrlock 0).2 + k) = (0, (rwTrywrlock 0).2 + k) ∧
      (rwTrywrlock 0).2 % 2 ^ 32 = 1 := by
  unfold rwTryrdlock rwTrywrlock writeBias
  refine ⟨rfl, ?_, ?_, by decide⟩
  · rw [if_neg (by simp only [if_true]; omega)]
  · rw [if_neg (by simp only [if_true]; omega)]

example : (5 : Nat) < 2 ^ 32 - 1 := by decide

/-- aosl_event_timedwait on an event that is set, or with a negative time, returns 0. -/
theorem C133_event_zero (isSet : Bool) (timeo : Int) (w : Wait) (h : isSet = true ∨ timeo < 0) : eventTimedwait isSet timeo w = 0 := by
  unfold eventTimedwait
  rcases h with h | h
  · simp [h]
  · simp [h]

namespace Start

/-- The model sees a thread that reads its arguments after its creator has returned: the flag `C135_safe_partial` proves to stay clear is not clear by construction. -/
theorem C135_would_show (arg : Nat) (fails : Bool) (s : St) (r : Int) (hc : s.c = .returned r) (ht : s.t = .begin) :
    ∃ s', Step arg fails s s' ∧ s'.ub = true :=
  ⟨_, .tBegin s ht, by simp [St.frame, hc]⟩

example : ∃ s : St, s.c = .returned 0 ∧ s.t = .begin := ⟨⟨.returned 0, .begin, none, false, none, [], false⟩, rfl, rfl⟩

end Start

end Verif.ThreadApi
