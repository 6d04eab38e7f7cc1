import Verif.KLocks
/-!
# Try-locks, timed waits and the start of a thread

Models the try and timed calls of lib/thread_api.c with kernel/thread.c:148-159, 220-223, 256-265, 359-374, 471-486 and
include/kernel/rwlock-generic.h:36-64 on top of the Linux HAL (platform/src/linux/aosl_hal_thread.c:165-168, 271-297), and
`k_thread_create`/`k_os_thread_entry` (kernel/thread.c:33-116) with `aosl_hal_thread_create` (aosl_hal_thread.c:18-37).

pthread functions return 0 or a positive error number.  A mutex is its owner.
-/

namespace Verif.ThreadApi

/-- A constant of the model of kernel/thread.c:148-159, 220-223, 256-265, 359-374, 471-486, include/kernel/rwlock-generic.h:36-64, platform/src/linux/aosl_hal_thread.c:165-168, 271-297. -/
def EBUSY : Nat := 16
/-- A constant of the model of kernel/thread.c:148-159, 220-223, 256-265, 359-374, 471-486, include/kernel/rwlock-generic.h:36-64, platform/src/linux/aosl_hal_thread.c:165-168, 271-297. -/
def ETIMEDOUT : Nat := 110

/-- pthread_mutex_trylock on a mutex owned by `owner`, called by thread `t`. Belongs to the model of kernel/thread.c:148-159, 220-223, 256-265, 359-374, 471-486, include/kernel/rwlock-generic.h:36-64, platform/src/linux/aosl_hal_thread.c:165-168, 271-297. -/
def pthreadTrylock (owner : Option Nat) (t : Nat) : Nat × Option Nat :=
  match owner with
  | none => (0, some t)
  | some o => (EBUSY, some o)

/-- `k_lock_t`: `none` if `aosl_hal_mutex_create` failed (kernel/thread.c:134-137), else the owner of the mutex. -/
abbrev Lock := Option (Option Nat)

/-- aosl_lock_trylock = k_lock_trylock (thread_api.c:66-69, kernel/thread.c:148-159): the result and the lock afterwards. -/
def lockTrylock (l : Lock) (t : Nat) : Int × Lock :=
  match l with
  | none => (0, none)
  | some o => if (pthreadTrylock o t).1 = 0 then (1, some (pthreadTrylock o t).2) else (0, some (pthreadTrylock o t).2)

/-- RWLOCK_ACTIVE_WRITE_BIAS = RWLOCK_WAITING_BIAS + RWLOCK_ACTIVE_BIAS for 64 bits (include/kernel/rwlock-generic.h:18-34). -/
def writeBias : Int := -(2 ^ 32) + 1

/-- aosl_rwlock_tryrdlock = __rwlock_tryrdlock (rwlock-generic.h:36-48) on the counter; a failed compare-and-exchange only repeats the loop. -/
def rwTryrdlock (count : Int) : Int × Int := if count ≥ 0 then (1, count + 1) else (0, count)

/-- __rwlock_trywrlock (rwlock-generic.h:59-64), the result of aosl_rwlock_trywrlock (kernel/thread.c:256-265). -/
def rwTrywrlock (count : Int) : Int × Int := if count = 0 then (1, writeBias) else (0, count)

/-- `return_err` (include/kernel/err.h:77-84): values -4095 … -1 become -1. -/
def returnErr (e : Int) : Int := if -4095 ≤ e ∧ e ≤ -1 then -1 else e

/-- aosl_static_lock_trylock (thread_api.c:95-98, kernel/thread.c:471-486) on an initialised lock. -/
def staticTrylock (owner : Option Nat) (t : Nat) : Int × Option Nat :=
  (returnErr (pthreadTrylock owner t).1, (pthreadTrylock owner t).2)

/-- How a wait with a time limit ended. Belongs to the model of kernel/thread.c:148-159, 220-223, 256-265, 359-374, 471-486, include/kernel/rwlock-generic.h:36-64, platform/src/linux/aosl_hal_thread.c:165-168, 271-297. -/
inductive Wait where
  | signalled
  | timedOut
deriving DecidableEq, Repr

/-- aosl_cond_timedwait (thread_api.c:181-184, kernel/thread.c:196-199, aosl_hal_thread.c:271-297): the result of pthread_cond_timedwait. -/
def condTimedwait (w : Wait) : Int :=
  match w with
  | .signalled => 0
  | .timedOut => ETIMEDOUT

/-- aosl_event_timedwait (kernel/thread.c:359-374): `isSet`: the event is set or pulsed at the call. -/
def eventTimedwait (isSet : Bool) (timeo : Int) (w : Wait) : Int :=
  if isSet then 0 else if timeo < 0 then 0 else condTimedwait w

/-! ## Threads that use a try-lock to enter a critical section -/

/-- The mutex and who is inside the critical section. Belongs to the model of kernel/thread.c:148-159, 220-223, 256-265, 359-374, 471-486, include/kernel/rwlock-generic.h:36-64, platform/src/linux/aosl_hal_thread.c:165-168, 271-297. -/
structure Cs where
  lock : Lock
  inside : Nat → Bool

/-- The state at the beginning, in the model of kernel/thread.c:148-159, 220-223, 256-265, 359-374, 471-486, include/kernel/rwlock-generic.h:36-64, platform/src/linux/aosl_hal_thread.c:165-168, 271-297. -/
def Cs.init : Cs := ⟨some none, fun _ => false⟩

/-- Thread `t` calls aosl_lock_trylock and enters if `enter` says so of the result; a thread inside leaves and calls aosl_lock_unlock (thread_api.c:71-74). -/
inductive Cs.Step (enter : Int → Bool) : Cs → Cs → Prop where
  | try_ (s : Cs) (t : Nat) (h : s.inside t = false) :
      Cs.Step enter s ⟨(lockTrylock s.lock t).2, fun j => if j = t then enter (lockTrylock s.lock t).1 else s.inside j⟩
  | leave (s : Cs) (t : Nat) (h : s.inside t = true) :
      Cs.Step enter s ⟨some none, fun j => if j = t then false else s.inside j⟩

/-- The states that can be reached by any history of the model of kernel/thread.c:148-159, 220-223, 256-265, 359-374, 471-486, include/kernel/rwlock-generic.h:36-64, platform/src/linux/aosl_hal_thread.c:165-168, 271-297; no code of its own. -/
inductive Cs.Reach (enter : Int → Bool) : Cs → Prop where
  | init : Cs.Reach enter Cs.init
  | step {s s'} (h : Cs.Reach enter s) (hs : Cs.Step enter s s') : Cs.Reach enter s'

/-! ## The start of a thread -/

namespace Start

/-- The creator in `k_thread_create` (kernel/thread.c:72-116). -/
inductive CPc where
  /-- before `aosl_hal_thread_create` -/
  | create
  /-- 104: about to lock -/
  | lock
  /-- 105: lock held, about to look at `args.done` -/
  | check
  /-- 106: in `k_cond_wait` -/
  | waiting
  /-- in `k_cond_wait`, woken, about to take the lock again -/
  | relock
  /-- 107: about to unlock -/
  | unlock
  /-- 110-115: lock and condition destroyed, returned `ret`; the frame with `args` is gone -/
  | returned (ret : Int)
deriving DecidableEq, Repr

/-- The new thread in `k_os_thread_entry` (kernel/thread.c:33-70). -/
inductive TPc where
  /-- does not exist -/
  | none
  /-- 38-59: reads the name, the priority, the entry and the argument from `args` -/
  | begin
  /-- 61: about to lock -/
  | lock
  /-- 62-63: lock held, about to set `done` and signal -/
  | set
  /-- 64: about to unlock -/
  | unlock
  /-- 66: in the entry function -/
  | entry
  /-- ended -/
  | ended
deriving DecidableEq, Repr

/-- Who holds the mutex on the creator's stack. Belongs to the model of kernel/thread.c:148-159, 220-223, 256-265, 359-374, 471-486, include/kernel/rwlock-generic.h:36-64, platform/src/linux/aosl_hal_thread.c:165-168, 271-297. -/
inductive Who where
  | creator
  | thread
deriving DecidableEq, Repr

/-- `entries`: the arguments the entry function was called with; `taken`: what the thread read from `args`; `ub`: the thread used the creator's frame after its end. Belongs to the model of kernel/thread.c:148-159, 220-223, 256-265, 359-374, 471-486, include/kernel/rwlock-generic.h:36-64, platform/src/linux/aosl_hal_thread.c:165-168, 271-297. -/
structure St where
  c : CPc
  t : TPc
  owner : Option Who
  done : Bool
  taken : Option Nat
  entries : List Nat
  ub : Bool
deriving DecidableEq, Repr

/-- The state at the beginning, in the model of kernel/thread.c:148-159, 220-223, 256-265, 359-374, 471-486, include/kernel/rwlock-generic.h:36-64, platform/src/linux/aosl_hal_thread.c:165-168, 271-297. -/
def St.init : St := ⟨.create, .none, none, false, none, [], false⟩

/-- The creator's frame still exists. Belongs to the model of kernel/thread.c:148-159, 220-223, 256-265, 359-374, 471-486, include/kernel/rwlock-generic.h:36-64, platform/src/linux/aosl_hal_thread.c:165-168, 271-297. -/
def St.frame (s : St) : Bool := match s.c with
  | .returned _ => false
  | _ => true

/-- `arg`: what the caller passed.  `fails`: pthread_create fails. -/
inductive Step (arg : Nat) (fails : Bool) : St → St → Prop where
  /-- aosl_hal_thread_create: pthread_create succeeds, and so does the function -/
  | createOk (s) (h : s.c = .create) (hf : fails = false) : Step arg fails s { s with c := .lock, t := .begin }
  /-- pthread_create returns a positive number; `if (err < 0)` (aosl_hal_thread.c:25) is false, 0 is returned -/
  | createFail (s) (h : s.c = .create) (hf : fails = true) : Step arg fails s { s with c := .lock }
  | cLock (s) (h : s.c = .lock) (ho : s.owner = none) : Step arg fails s { s with c := .check, owner := some .creator }
  | cDone (s) (h : s.c = .check) (hd : s.done = true) : Step arg fails s { s with c := .unlock }
  | cWait (s) (h : s.c = .check) (hd : s.done = false) : Step arg fails s { s with c := .waiting, owner := none }
  /-- a wake-up without a signal -/
  | cSpurious (s) (h : s.c = .waiting) : Step arg fails s { s with c := .relock }
  | cRelock (s) (h : s.c = .relock) (ho : s.owner = none) : Step arg fails s { s with c := .check, owner := some .creator }
  | cUnlock (s) (h : s.c = .unlock) : Step arg fails s { s with c := .returned 0, owner := none }
  | tBegin (s) (h : s.t = .begin) : Step arg fails s { s with t := .lock, taken := some arg, ub := s.ub || !s.frame }
  | tLock (s) (h : s.t = .lock) (ho : s.owner = none) : Step arg fails s { s with t := .set, owner := some .thread, ub := s.ub || !s.frame }
  /-- `done = 1` and `k_cond_signal` -/
  | tSet (s) (h : s.t = .set) :
      Step arg fails s { s with t := .unlock, done := true, c := (if s.c = .waiting then .relock else s.c), ub := s.ub || !s.frame }
  | tUnlock (s) (h : s.t = .unlock) : Step arg fails s { s with t := .entry, owner := none, ub := s.ub || !s.frame }
  | tEntry (s) (h : s.t = .entry) : Step arg fails s { s with t := .ended, entries := s.entries ++ s.taken.toList }

/-- The states that can be reached by any history of the model of kernel/thread.c:148-159, 220-223, 256-265, 359-374, 471-486, include/kernel/rwlock-generic.h:36-64, platform/src/linux/aosl_hal_thread.c:165-168, 271-297; no code of its own. -/
inductive Reach (arg : Nat) (fails : Bool) : St → Prop where
  | init : Reach arg fails St.init
  | step {s s'} (h : Reach arg fails s) (hs : Step arg fails s s') : Reach arg fails s'

end Start

end Verif.ThreadApi
