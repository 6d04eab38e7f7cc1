/-!
# Waiting for a condition, and a condition variable that could not be made

Models the use of `aosl_cond_t` the documentation asks for, on the ports with native condition variables and ac791n: threads that do
`lock; while (!flag) aosl_cond_wait; unlock` and one that does `lock; flag = 1; aosl_cond_broadcast; unlock`.
lib/thread_api.c:161-193, kernel/thread.c:174-206 (`k_cond_*`), `aosl_hal_cond_create/wait/broadcast` in platform/src/PORT/aosl_hal_thread.c
(linux 201-274, darwin 149-187, esp32 202-260, ipro7 299-357, harmony 198-271, bk725x 165-223, windows 470-517, ac791n 200-252).

The system's condition variable gives the mutex back and sleeps in one step, and wakes every sleeper when told; a sleeper may wake by itself.
-/
namespace Verif.PortCond

/-- A thread that waits for the flag. Belongs to the model of lib/thread_api.c:161-193, kernel/thread.c:174-206. -/
inductive WPc where
  /-- about to lock -/
  | out
  /-- has the lock, about to look at the flag -/
  | chk
  /-- in aosl_cond_wait, the lock given back, asleep -/
  | asleep
  /-- in aosl_cond_wait, woken, about to take the lock again -/
  | woken
  /-- has seen the flag, has the lock, about to unlock -/
  | unl
  | done
deriving DecidableEq, Repr

/-- The thread that sets the flag. Belongs to the model of lib/thread_api.c:161-193, kernel/thread.c:174-206. -/
inductive SPc where
  | out | set | bc | unl | done
deriving DecidableEq, Repr

/-- The cases distinguished in the model of lib/thread_api.c:161-193, kernel/thread.c:174-206. -/
inductive Who where
  | setter
  | w (i : Nat)
deriving DecidableEq, Repr

/-- `cond`: is there a condition variable behind the `aosl_cond_t` (kernel/thread.c:175-179: the result of aosl_hal_cond_create is not looked at). -/
structure St where
  cond : Bool
  owner : Option Who
  flag : Bool
  sp : SPc
  pc : Nat → WPc

/-- aosl_cond_create (thread_api.c:161-168) returned an object; `cond` says whether the port could make the variable (linux 204-206, 211-222 and the like). -/
def St.init (cond : Bool) : St := ⟨cond, none, false, .out, fun _ => .out⟩

/-- A table changed at one place, as an assignment to one element or one object does; used in the model of lib/thread_api.c:161-193, kernel/thread.c:174-206. -/
def upd (f : Nat → WPc) (i : Nat) (v : WPc) : Nat → WPc := fun j => if j = i then v else f j

/-- Every sleeper is woken: pthread_cond_broadcast, WakeAllConditionVariable; nothing without a variable. Belongs to the model of lib/thread_api.c:161-193, kernel/thread.c:174-206. -/
def wakeAll (cond : Bool) (f : Nat → WPc) : Nat → WPc := fun j => if cond = true ∧ f j = .asleep then .woken else f j

inductive Ev where
  /-- aosl_lock_lock, or the end of pthread_cond_wait, gets the mutex -/
  | lock (i : Nat)
  /-- the flag is not set: aosl_cond_wait gives the mutex back and sleeps (linux 273) -/
  | sleep (i : Nat)
  /-- the flag is not set: aosl_cond_wait returns at once, the mutex kept: no variable (linux 269-271, darwin 185, esp32 255-257, ipro7 352-354, harmony 266-268, bk725x 218-220, windows 508-510, ac791n 257) -/
  | spin (i : Nat)
  /-- the flag is set -/
  | see (i : Nat)
  | unlock (i : Nat)
  /-- a sleeper wakes by itself -/
  | spurious (i : Nat)
  | sLock | sSet | sBc | sUnlock
deriving DecidableEq, Repr

/-- One step of one of `n` waiting threads or of the setter; `none` if it cannot happen. Belongs to the model of lib/thread_api.c:161-193, kernel/thread.c:174-206. -/
def step (n : Nat) (s : St) : Ev → Option St
  | .lock i => if i < n ∧ (s.pc i = .out ∨ s.pc i = .woken) ∧ s.owner = none then some { s with owner := some (.w i), pc := upd s.pc i .chk } else none
  | .sleep i => if i < n ∧ s.pc i = .chk ∧ s.flag = false ∧ s.cond = true then some { s with owner := none, pc := upd s.pc i .asleep } else none
  | .spin i => if i < n ∧ s.pc i = .chk ∧ s.flag = false ∧ s.cond = false then some s else none
  | .see i => if i < n ∧ s.pc i = .chk ∧ s.flag = true then some { s with pc := upd s.pc i .unl } else none
  | .unlock i => if i < n ∧ s.pc i = .unl then some { s with owner := none, pc := upd s.pc i .done } else none
  | .spurious i => if i < n ∧ s.pc i = .asleep then some { s with pc := upd s.pc i .woken } else none
  | .sLock => if s.sp = .out ∧ s.owner = none then some { s with owner := some .setter, sp := .set } else none
  | .sSet => if s.sp = .set then some { s with flag := true, sp := .bc } else none
  | .sBc => if s.sp = .bc then some { s with sp := .unl, pc := wakeAll s.cond s.pc } else none
  | .sUnlock => if s.sp = .unl then some { s with owner := none, sp := .done } else none

/-- A history: any interleaving. Belongs to the model of lib/thread_api.c:161-193, kernel/thread.c:174-206. -/
def run (n : Nat) : St → List Ev → Option St
  | s, [] => some s
  | s, e :: es => (step n s e).bind fun t => run n t es

end Verif.PortCond
