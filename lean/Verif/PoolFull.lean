/-!
  Model of queueing functions to one queue of a pool, against the limit of the queue:
  kernel/mpqp.c:207-228 (__mpqp_best_q_get raises the queue's `count` for the caller), 263-267
  (__mpqp_best_q_put), 280-331 (__mpqp_best_q_queue), kernel/mpq.c:429-485 (the loop in ____add_f),
  636-667 (__process_fo lowers `count`), 670-703 (__check_and_call_funcs signals), 1551-1565
  (aosl_mpq_queued_count).

  The queue is one that the pool picks for the calls; how it picks, creates and ends queues is Pool's and
  PoolIdle's.  Callers run on other threads than the queue's and their own queue, if any, is not being
  destroyed (mpq.c:476-479); memory for the function object is there (mpq.c:391-396).  `max` is the limit
  given to aosl_mpqp_create, `nb` the flag AOSL_MPQ_FLAG_NONBLOCK.  aosl_mpqp_call (333-380) keeps `count` raised until its
  function has been executed.
-/
namespace Verif.PoolFull

structure St where
  /-- callers of the pool that have raised `count` and are about to look at it under the lock -/
  fresh : Nat
  /-- callers of the pool in k_cond_wait -/
  wait : Nat
  /-- callers of the pool that have left ____add_f with success and not yet lowered `count` -/
  added : Nat
  /-- callers of aosl_mpqp_call whose function is queued or running: they wait for it (mpq.c:453-460) -/
  sync : Nat
  /-- callers of the pool that have left ____add_f with EAGAIN and not yet lowered `count` -/
  refused : Nat
  /-- callers of the queue itself (aosl_mpq_queue) about to look -/
  dfresh : Nat
  /-- callers of the queue itself in k_cond_wait -/
  dwait : Nat
  /-- the function objects in the list or the batch of the queue, the running one included -/
  objs : Nat
  /-- the queue thread has finished a function and not yet looked for somebody to wake -/
  sig : Bool
  /-- `q->count` -/
  count : Int
  /-- calls of the pool that have returned the queue's id -/
  ok : Nat
  /-- calls of the pool that have returned EAGAIN -/
  again : Nat
  /-- calls of the queue itself that have returned 0 -/
  dok : Nat

/-- mpq.c:887: a new queue -/
def init : St := ⟨0, 0, 0, 0, 0, 0, 0, 0, false, 0, 0, 0, 0⟩

inductive Ev where
  /-- mpqp.c:223-224: a caller of the pool gets the queue -/
  | get
  /-- mpq.c:432-447: a caller of the pool finds room -/
  | add
  /-- the same for a synchronous call -/
  | addSync
  /-- mpq.c:481-483 -/
  | block
  /-- mpq.c:466-467, 486-488: with AOSL_MPQ_FLAG_NONBLOCK -/
  | refuse
  /-- mpqp.c:265 after success -/
  | put
  /-- mpqp.c:265 after EAGAIN -/
  | putRefused
  /-- aosl_mpq_queue on the queue's own id: called, adds, blocks, refused -/
  | dcall | dadd | dblock | drefuse
  /-- mpq.c:493-503: an addition that ignores the limit -/
  | noFail
  /-- mpq.c:656-661: a function nobody waits for is finished; mpq.c:663-667: a function of a synchronous call -/
  | exec | execSync
  /-- mpq.c:694-697: nobody waits / a caller of the pool is woken / a caller of the queue is woken -/
  | sig0 | sigPool | sigQueue
  /-- a waiting caller wakes up by itself -/
  | spurious | dspurious
  deriving DecidableEq, Repr

/-- The next state, `none` when the event cannot happen. Belongs to the model of kernel/mpqp.c:207-228, kernel/mpq.c:429-485, mpq.c:476-479. -/
def step (max : Nat) (nb : Bool) (s : St) : Ev → Option St
  | .get => some { s with fresh := s.fresh + 1, count := s.count + 1 }
  | .add =>
    if 0 < s.fresh ∧ s.count < max then
      some { s with fresh := s.fresh - 1, added := s.added + 1, objs := s.objs + 1, count := s.count + 1 } else none
  | .addSync =>
    if 0 < s.fresh ∧ s.count < max then
      some { s with fresh := s.fresh - 1, sync := s.sync + 1, objs := s.objs + 1, count := s.count + 1 } else none
  | .block =>
    if 0 < s.fresh ∧ ¬ s.count < max ∧ nb = false then
      some { s with fresh := s.fresh - 1, wait := s.wait + 1 } else none
  | .refuse =>
    if 0 < s.fresh ∧ ¬ s.count < max ∧ nb = true then
      some { s with fresh := s.fresh - 1, refused := s.refused + 1 } else none
  | .put => if 0 < s.added then some { s with added := s.added - 1, count := s.count - 1, ok := s.ok + 1 } else none
  | .putRefused =>
    if 0 < s.refused then some { s with refused := s.refused - 1, count := s.count - 1, again := s.again + 1 } else none
  | .dcall => some { s with dfresh := s.dfresh + 1 }
  | .dadd =>
    if 0 < s.dfresh ∧ s.count < max then
      some { s with dfresh := s.dfresh - 1, objs := s.objs + 1, count := s.count + 1, dok := s.dok + 1 } else none
  | .dblock =>
    if 0 < s.dfresh ∧ ¬ s.count < max ∧ nb = false then
      some { s with dfresh := s.dfresh - 1, dwait := s.dwait + 1 } else none
  | .drefuse =>
    if 0 < s.dfresh ∧ ¬ s.count < max ∧ nb = true then some { s with dfresh := s.dfresh - 1 } else none
  | .noFail => some { s with objs := s.objs + 1, count := s.count + 1 }
  | .exec =>
    if s.sync < s.objs ∧ s.sig = false then some { s with objs := s.objs - 1, count := s.count - 1, sig := true } else none
  | .execSync =>
    if 0 < s.sync ∧ 0 < s.objs ∧ s.sig = false then
      some { s with sync := s.sync - 1, added := s.added + 1, objs := s.objs - 1, count := s.count - 1, sig := true } else none
  | .sig0 => if s.sig = true ∧ s.wait = 0 ∧ s.dwait = 0 then some { s with sig := false } else none
  | .sigPool =>
    if s.sig = true ∧ 0 < s.wait then some { s with sig := false, wait := s.wait - 1, fresh := s.fresh + 1 } else none
  | .sigQueue =>
    if s.sig = true ∧ 0 < s.dwait then some { s with sig := false, dwait := s.dwait - 1, dfresh := s.dfresh + 1 } else none
  | .spurious => if 0 < s.wait then some { s with wait := s.wait - 1, fresh := s.fresh + 1 } else none
  | .dspurious => if 0 < s.dwait then some { s with dwait := s.dwait - 1, dfresh := s.dfresh + 1 } else none

/-- One event after the other, in the model of kernel/mpqp.c:207-228, kernel/mpq.c:429-485, mpq.c:476-479; no code of its own. -/
def run (max : Nat) (nb : Bool) : St → List Ev → Option St
  | s, [] => some s
  | s, e :: es => (step max nb s e).bind fun t => run max nb t es

/-- mpq.c:1562 what aosl_mpq_queued_count answers -/
def queuedCount (s : St) : Int := s.count

end Verif.PoolFull
