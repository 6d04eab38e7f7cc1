/-!
# Waiting for the write lock

Models `k_rwlock_rdlock`, `k_rwlock_wrlock`, `k_rwlock_rdunlock`, `k_rwlock_wrunlock` (/repo/kernel/thread.c:215-218, 225-254, 267-276)
and `aosl_rwlock_*` (/repo/lib/thread_api.c:105-150), which call them, for any number of threads.

The raw lock is taken and given back in one step, as RwLock shows it to be used: its trywrlock (include/kernel/rwlock-generic.h:59-64)
succeeds exactly if nobody is in, its rdlock waits while a writer is in and, as `k_rwlock_wrlock` only ever tries, never for one that
waits.  Upgrades (thread.c:278-309) are left out, they are KLocks'.  The mutex is there (PortLock is about its absence).
-/
namespace Verif.RwWait

/-- Where a thread stands. Belongs to the model of kernel/thread.c:215-276. -/
inductive Pc
  /-- not in a call, holding nothing -/
  | out
  /-- has the read lock (thread.c:217) -/
  | reading
  /-- wants the write lock, about to lock the mutex (thread.c:228) -/
  | want
  /-- has locked the mutex, about to try the raw lock (thread.c:229) -/
  | try
  /-- the try has failed, about to give the mutex back (thread.c:250) -/
  | failed
  /-- sleeps (thread.c:252) -/
  | sleep
  /-- has the write lock, and the mutex with it (thread.c:230) -/
  | writing
deriving DecidableEq, Repr

/-- The threads. Belongs to the model of kernel/thread.c:215-276. -/
abbrev St := List Pc

/-- Does the thread hold the mutex of the lock?  (thread.c:228-250, 275) -/
def hasMutex : Pc → Bool
  | .try | .failed | .writing => true
  | _ => false

/-- What a thread does next. Belongs to the model of kernel/thread.c:215-276. -/
inductive Act
  /-- asks for the read lock (and has it at once, or the step waits; thread.c:217) -/
  | rd (t : Nat)
  /-- gives the read lock back (thread.c:269) -/
  | rdDone (t : Nat)
  /-- calls for the write lock (thread.c:225) -/
  | wr (t : Nat)
  /-- one step of a thread inside `k_rwlock_wrlock` (thread.c:227-253) -/
  | go (t : Nat)
  /-- gives the write lock back (thread.c:274-275) -/
  | wrDone (t : Nat)
deriving DecidableEq, Repr

/-- One step; none when the thread has to wait or is elsewhere. Models kernel/thread.c:215-218, 225-254, 267-276. -/
def step (s : St) : Act → Option St
  | .rd t => if s[t]? = some .out ∧ .writing ∉ s then some (s.set t .reading) else none
  | .rdDone t => if s[t]? = some .reading then some (s.set t .out) else none
  | .wr t => if s[t]? = some .out then some (s.set t .want) else none
  | .go t => match s[t]? with
    | some .want => if s.any hasMutex then none else some (s.set t .try)
    | some .try => if .reading ∈ s ∨ .writing ∈ s then some (s.set t .failed) else some (s.set t .writing)
    | some .failed => some (s.set t .sleep)
    | some .sleep => some (s.set t .want)
    | _ => none
  | .wrDone t => if s[t]? = some .writing then some (s.set t .out) else none

/-- A sequence of steps. Models no code of its own (kernel/thread.c:215-276 step by step). -/
def run (s : St) : List Act → Option St
  | [] => some s
  | a :: as => match step s a with
    | none => none
    | some s' => run s' as

end Verif.RwWait
