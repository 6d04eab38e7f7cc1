/-!
# Library lifecycle and the main queue

Models kernel/mpq.c:1833-1941 (`aosl_ctor`, `aosl_dtor` and their lock) and kernel/mpq.c:1768-1815 (`aosl_main_start`, `aosl_mpq_main`, `aosl_main_exit`) with the part of
`__q_destroy` that resets `aosl_main_qid` (mpq.c:751-755).

Any number of threads; every access to `s_aosl_lifecycle_lock` and `s_aosl_init_refcount` and every subsystem call is a step, interleaved arbitrarily.
The reference count is a natural number (the code's is an `int`: 2^31 owners).  The `abort` of a last owner on an AOSL thread ends the process.
-/

namespace Verif.Lifecycle

/-- The subsystems, in the order of mpq.c:1931-1940. -/
inductive Sub
  | mm | thread | errno | refobj | timer | fileobj | iofd | mpq | mpqp | route
deriving DecidableEq, Repr

/-- A call of an initialisation or finalisation function. Belongs to the model of kernel/mpq.c:1833-1941, kernel/mpq.c:1768-1815, mpq.c:751-755. -/
inductive Ev
  | init (x : Sub)
  | fini (x : Sub)
deriving DecidableEq, Repr

/-- The calls in `aosl_ctor` (mpq.c:1931-1940). -/
def inits : List Ev := [.init .mm, .init .thread, .init .errno, .init .refobj, .init .timer, .init .fileobj, .init .iofd, .init .mpq, .init .mpqp, .init .route]

/-- The calls in `aosl_dtor` (mpq.c:1904-1913). -/
def finis : List Ev := [.fini .route, .fini .mpqp, .fini .mpq, .fini .iofd, .fini .fileobj, .fini .timer, .fini .refobj, .fini .errno, .fini .thread, .fini .mm]

/-- The calls and events of the model of kernel/mpq.c:1833-1941, kernel/mpq.c:1768-1815, mpq.c:751-755. -/
inductive Call
  | ctor
  | dtor
deriving DecidableEq, Repr

/-- Where a thread is. Belongs to the model of kernel/mpq.c:1833-1941, kernel/mpq.c:1768-1815, mpq.c:751-755. -/
inductive Pc
  | idle
  /-- in `aosl_lifecycle_lock` -/
  | spin (c : Call)
  /-- holds the lock, the count is read next -/
  | locked (c : Call)
  /-- holds the lock, has these subsystem calls left; then, if `set`, the count is set to 1 -/
  | body (left : List Ev) (set : Bool)
  /-- holds the lock, releases it next -/
  | unlock
deriving DecidableEq, Repr

/-- `s_aosl_lifecycle_lock`, `s_aosl_init_refcount`, the subsystem calls made so far, the threads; ghost: the order in which the calls got the lock. Belongs to the model of kernel/mpq.c:1833-1941, kernel/mpq.c:1768-1815, mpq.c:751-755. -/
structure St where
  lock : Bool
  count : Nat
  log : List Ev
  pcs : List Pc
  order : List Call
  aborted : Bool
deriving DecidableEq, Repr

/-- The state at the beginning, in the model of kernel/mpq.c:1833-1941, kernel/mpq.c:1768-1815, mpq.c:751-755. -/
def init (threads : Nat) : St := ⟨false, 0, [], List.replicate threads .idle, [], false⟩

/-- The calls and events of the model of kernel/mpq.c:1833-1941, kernel/mpq.c:1768-1815, mpq.c:751-755. -/
inductive Op
  | call (t : Nat) (c : Call)
  /-- the next step of thread `t`; `aoslThread`: it is a queue's thread (`THIS_MPQ () != NULL`) -/
  | go (t : Nat) (aoslThread : Bool)
deriving DecidableEq, Repr

/-- One step of thread `t`. Belongs to the model of kernel/mpq.c:1833-1941, kernel/mpq.c:1768-1815, mpq.c:751-755. -/
def go (s : St) (t : Nat) (aoslThread : Bool) : St :=
  match s.pcs[t]? with
  | some (.spin c) =>
    -- `atomic_cmpxchg (&lock, 0, 1)`, else sleep and try again
    if s.lock then s else { s with lock := true, pcs := s.pcs.set t (.locked c), order := s.order ++ [c] }
  | some (.locked .ctor) =>
    if s.count > 0 then { s with count := s.count + 1, pcs := s.pcs.set t .unlock } else { s with pcs := s.pcs.set t (.body inits true) }
  | some (.locked .dtor) =>
    if s.count = 0 then { s with pcs := s.pcs.set t .unlock }
    else if s.count - 1 > 0 then { s with count := s.count - 1, pcs := s.pcs.set t .unlock }
    else if aoslThread then { s with count := s.count - 1, aborted := true }
    else { s with count := s.count - 1, pcs := s.pcs.set t (.body finis false) }
  | some (.body (e :: es) b) => { s with log := s.log ++ [e], pcs := s.pcs.set t (.body es b) }
  | some (.body [] b) => { s with count := if b then 1 else s.count, pcs := s.pcs.set t .unlock }
  | some .unlock => { s with lock := false, pcs := s.pcs.set t .idle }
  | _ => s

/-- One step; nothing happens after an abort. Belongs to the model of kernel/mpq.c:1833-1941, kernel/mpq.c:1768-1815, mpq.c:751-755. -/
def step (s : St) (op : Op) : St :=
  if s.aborted then s
  else match op with
    | .call t c => if s.pcs[t]? = some .idle then { s with pcs := s.pcs.set t (.spin c) } else s
    | .go t a => go s t a

/-- One event after the other, in the model of kernel/mpq.c:1833-1941, kernel/mpq.c:1768-1815, mpq.c:751-755; no code of its own. -/
def run (s : St) (ops : List Op) : St := ops.foldl step s

/-! ## Specification -/

/-- The number of owners after one more call: a `dtor` without owners has no effect. Belongs to the model of kernel/mpq.c:1833-1941, kernel/mpq.c:1768-1815, mpq.c:751-755. -/
def ownStep (n : Nat) : Call → Nat
  | .ctor => n + 1
  | .dtor => n - 1

/-- The number of owners after these calls, one after the other. Belongs to the model of kernel/mpq.c:1833-1941, kernel/mpq.c:1768-1815, mpq.c:751-755. -/
def owners (cs : List Call) : Nat := cs.foldl ownStep 0

/-- The subsystem calls of one call made with `n` owners. Belongs to the model of kernel/mpq.c:1833-1941, kernel/mpq.c:1768-1815, mpq.c:751-755. -/
def effect (n : Nat) : Call → List Ev
  | .ctor => if n = 0 then inits else []
  | .dtor => if n = 1 then finis else []

/-- One more call: the owners and the subsystem calls so far. Belongs to the model of kernel/mpq.c:1833-1941, kernel/mpq.c:1768-1815, mpq.c:751-755. -/
def effStep (p : Nat × List Ev) (c : Call) : Nat × List Ev := (ownStep p.1 c, p.2 ++ effect p.1 c)

/-- The subsystem calls of these calls, one after the other. Belongs to the model of kernel/mpq.c:1833-1941, kernel/mpq.c:1768-1815, mpq.c:751-755. -/
def effects (cs : List Call) : List Ev := (cs.foldl effStep (0, [])).2

/-! ## The main queue -/

/-- `aosl_main_qid`: -1, 0 while it is being created, or a queue's id. Belongs to the model of kernel/mpq.c:1833-1941, kernel/mpq.c:1768-1815, mpq.c:751-755. -/
inductive Main
  | none
  | creating
  | q (id : Nat)
deriving DecidableEq, Repr

/-- `aosl_main_qid`, the main queues that exist (not yet in `__q_destroy`), the threads between the two halves of `aosl_main_start`, ids used so far. Belongs to the model of kernel/mpq.c:1833-1941, kernel/mpq.c:1768-1815, mpq.c:751-755. -/
structure MSt where
  main : Main
  queues : List Nat
  starting : List Nat
  next : Nat
deriving DecidableEq, Repr

/-- The state at the beginning, in the model of kernel/mpq.c:1833-1941, kernel/mpq.c:1768-1815, mpq.c:751-755. -/
def mInit : MSt := ⟨.none, [], [], 1⟩

/-- The calls and events of the model of kernel/mpq.c:1833-1941, kernel/mpq.c:1768-1815, mpq.c:751-755. -/
inductive MOp
  /-- thread `t` calls `aosl_main_start`, up to the exchange of `aosl_main_qid` -/
  | start (t : Nat)
  /-- `__mpq_create` and the rest -/
  | create (t : Nat) (ok : Bool)
  /-- `aosl_main_exit`, as far as the caller sees -/
  | exit
  /-- the queue with this id ends (`__q_destroy`) -/
  | ended (id : Nat)
deriving DecidableEq, Repr

/-- A constant of the model of kernel/mpq.c:1833-1941, kernel/mpq.c:1768-1815, mpq.c:751-755. -/
def eEXIST : Int := 1017
/-- A constant of the model of kernel/mpq.c:1833-1941, kernel/mpq.c:1768-1815, mpq.c:751-755. -/
def eINVAL : Int := 1022

/-- One step and its result (`some (-e)` for -1 with that errno, `none` if the call goes on). Belongs to the model of kernel/mpq.c:1833-1941, kernel/mpq.c:1768-1815, mpq.c:751-755. -/
def mStep (s : MSt) : MOp → MSt × Option Int
  | .start t =>
    if s.main = .none then ({ s with main := .creating, starting := t :: s.starting }, none) else (s, some (-eEXIST))
  | .create t ok =>
    if t ∈ s.starting then
      if ok then ({ s with main := .q s.next, queues := s.next :: s.queues, starting := s.starting.erase t, next := s.next + 1 }, some 0)
      -- `if (q == NULL) return -1;`
      else ({ s with starting := s.starting.erase t }, some (-1))
    else (s, none)
  | .exit => match s.main with
    | .q id => if id ∈ s.queues then (s, some 0) else (s, some (-eINVAL))
    | _ => (s, some (-eINVAL))
  | .ended id =>
    if id ∈ s.queues then ({ s with queues := s.queues.erase id, main := if s.main = .q id then .none else s.main }, none) else (s, none)

/-- Belongs to the model of kernel/mpq.c:1833-1941, kernel/mpq.c:1768-1815, mpq.c:751-755. -/
def mRun : MSt → List MOp → MSt × List (Option Int)
  | s, [] => (s, [])
  | s, op :: ops => ((mRun (mStep s op).1 ops).1, (mStep s op).2 :: (mRun (mStep s op).1 ops).2)

end Verif.Lifecycle
