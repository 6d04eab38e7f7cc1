/-!
# Multi-producer queues (kernel/mpq.c)

A small-step interleaving model of the queue machinery of `/repo/kernel/mpq.c`:
any number of threads and queues, each thread being at one program point of at
most one library call, each queue's own thread additionally at one point of the
consumer loop `__check_and_call_funcs` / `__q_wait_destroy`.  One action is one
critical section (or one atomic access) of the C code; a schedule is a list of
actions.

Simplifications (all stated once here, and repeated at the definitions):
* queue handles are never reused, so a handle is the index of the queue
  (handle reuse is the business of `Verif.IdTable`);
* the wake-up pipe is not in this model: the consumer may look at its queue at
  any time (the wake-up protocol has its own model, `Verif.Wakeup`);
* the outcome of `mpq_invoke_refobj_get` (object alive or free-only) is chosen
  by the environment for each invocation;
* memory allocation does not fail (`____add_f` aborts the process if it does);
* timers and fd events are represented by the fact that the queue's thread may
  start library calls whenever it is between two consumer steps.

The log of the model is a list of observable events; it is never read by the
model itself.
-/

namespace Verif.Mpq

/-- What the invoked function is given: the object (or no object at all), or the
free-only mark.  kernel/mpq.c:572-614 (`mpq_invoke_refobj_get`). -/
inductive Mode | obj | freeOnly
deriving DecidableEq, Repr

/-- Results of the queueing calls.  kernel/mpq.c:371-491, 1296-1420. -/
inductive Rc | ok | einval | e2big | emsgsize | eperm | eagain | eintr
deriving DecidableEq, Repr

/-- A queued function object, `struct q_func_obj` (include/kernel/mp_queue.h).
`n` is a ghost number identifying the API call that created it; `compl` says that
this is the completion added by `__invoke_f` for call `n` (kernel/mpq.c:640-646).
`sync = some t` means `sync_obj` lives on the stack of thread `t`. -/
structure Fo where
  n : Nat
  compl : Bool
  sync : Option Nat
  done : Option Nat
  noFail : Bool
deriving DecidableEq, Repr

/-- Observable events. Belongs to the model of kernel/mpq.c:235-1688, include/kernel/mp_queue.h:30-250. -/
inductive Ev
  /-- thread `t` made call `n` on queue `q`, synchronous or not, with completion queue `done` -/
  | called (t q n : Nat) (sync : Bool) (done : Option Nat)
  /-- the function of call `n` (or its completion) was added to the tail of queue `q` -/
  | queued (q n : Nat) (compl : Bool)
  /-- queue `q` invoked the queued function; `done` is the completion queue it was queued with -/
  | invoked (q n : Nat) (compl : Bool) (m : Mode) (done : Option Nat)
  /-- the invoked function returned -/
  | returned (q n : Nat) (compl : Bool) (m : Mode) (done : Option Nat)
  /-- the completion of call `n` was invoked free-only by queue `q` itself -/
  | localFree (q n : Nat)
  /-- the function object was freed and the pending count decremented -/
  | finished (q n : Nat) (compl : Bool)
  /-- a call on the own queue ran the function inline -/
  | inlined (q n : Nat)
  /-- the inlined function returned -/
  | inlineRet (q n : Nat)
  /-- call `n` of thread `t` on queue `q` returned `rc` -/
  | result (t q n : Nat) (sync : Bool) (rc : Rc)
deriving DecidableEq, Repr

/-- Program point of a thread inside the library's queueing and destroying calls.
kernel/mpq.c:371-491 (`____add_f`), 1639-1691 (`__mpq_destroy`, `mpq_destroy`). -/
inductive Op
  | idle
  /-- `__mpq_get` succeeded, `____add_f` entered -/
  | got (q : Nat) (fo : Fo)
  /-- asleep in `k_cond_wait (&q->wait_q)` -/
  | asleep (q : Nat) (fo : Fo)
  /-- woken up from `wait_q`, about to take the lock again -/
  | woken (q : Nat) (fo : Fo)
  /-- added a synchronous function, waiting for `sync_obj.result`; the flag is that field -/
  | syncWait (q : Nat) (fo : Fo) (fin : Bool)
  /-- about to `__mpq_put` and return `rc` -/
  | put (q : Nat) (fo : Fo) (rc : Rc)
  /-- `mpq_destroy`: got the queue -/
  | dgot (q : Nat)
  /-- `mpq_destroy`: `terminated` set and kicked, wake-up of the own waiters next -/
  | dterm (q : Nat)
deriving DecidableEq, Repr

/-- A thread: `this` is its queue (`THIS_MPQ ()`), `op` its program point in a
library call, `inl` the nest of functions it is running inline
(kernel/mpq.c:1232-1276). -/
structure Thr where
  this : Option Nat
  op : Op
  inl : List (Nat)
deriving DecidableEq, Repr

/-- Where the queue's thread is in its life: poll loop, after the loop
(`exiting`), handle uninstalled, saw `usage == 1`, running `fini`, freed.
kernel/mpq.c:769-853. -/
inductive Stage | live | exiting | uninst | drain | fini | dead
deriving DecidableEq, Repr

/-- Where the queue's thread is in `__check_and_call_funcs` / `__process_fo` /
`__invoke_f` (kernel/mpq.c:624-703). -/
inductive Phase
  /-- not inside `__check_and_call_funcs` -/
  | poll
  /-- at the head of the `while (head != NULL)` loop -/
  | next
  /-- the function is running -/
  | run (fo : Fo) (m : Mode)
  /-- the function has returned, completion not yet handled -/
  | post (fo : Fo) (m : Mode)
  /-- the completion is running free-only on this queue -/
  | runFree (fo : Fo)
  /-- completion handled, function object not yet freed -/
  | fin (fo : Fo)
  /-- function object freed and counted out, `wait_q` not yet signalled -/
  | sig
deriving DecidableEq, Repr

/-- `struct mp_queue`, the fields used here.  `pend` is the list `head..tail`,
`batch` the part of the swapped-out list not yet processed. Belongs to the model of kernel/mpq.c:235-1688, include/kernel/mp_queue.h:30-250. -/
structure Q where
  thr : Nat
  max : Nat
  nonblock : Bool
  installed : Bool
  usage : Nat
  term : Bool
  stage : Stage
  phase : Phase
  pend : List Fo
  batch : List Fo
  count : Nat
deriving DecidableEq, Repr

/-- Data of the model of kernel/mpq.c:235-1688, include/kernel/mp_queue.h:30-250. -/
structure St where
  qs : List Q
  thr : List Thr
  next : Nat
  log : List Ev
  /-- a synchronous completion was signalled to a stack frame that is not waiting -/
  bad : Bool
deriving DecidableEq, Repr

/-- The state at the beginning, in the model of kernel/mpq.c:235-1688, include/kernel/mp_queue.h:30-250. -/
def init : St := { qs := [], thr := [], next := 0, log := [], bad := false }

/-- Function arguments: an argument vector of `n` words or `n` bytes of data. Belongs to the model of kernel/mpq.c:235-1688, include/kernel/mp_queue.h:30-250. -/
inductive Args | argv (n : Nat) | data (n : Nat)
deriving DecidableEq, Repr

/-- include/kernel/mp_queue.h:250 with AOSL_VAR_ARGS_MAX = 64 (include/api/aosl_defs.h:98). -/
def argcMax : Nat := 64
/-- include/kernel/mp_queue.h:30. -/
def dataLenMax : Nat := 8192

/-- kernel/mpq.c:1289-1293, 1351-1354, 1388-1391. -/
def argsErr : Args → Option Rc
  | .argv n => if argcMax < n then some .e2big else none
  | .data n => if dataLenMax < n then some .emsgsize else none

/-- The kind of API call: `aosl_mpq_queue*`, `aosl_mpq_call*`, `aosl_mpq_run*`.
kernel/mpq.c:1423-1549. -/
inductive Kind | queue (done : Option Nat) | call | run
deriving DecidableEq, Repr

/-- Does the call wait for the function (the `sync` argument)?  `own`: the target is
the caller's own queue.  kernel/mpq.c:1423-1549. -/
def Kind.sync (own : Bool) : Kind → Bool
  | .queue _ => false
  | .call => true
  | .run => own

/-- The `treat_this` argument. Belongs to the model of kernel/mpq.c:235-1688, include/kernel/mp_queue.h:30-250. -/
def Kind.treatThis : Kind → Bool
  | .queue _ => false
  | _ => true

/-- The completion queue. Belongs to the model of kernel/mpq.c:235-1688, include/kernel/mp_queue.h:30-250. -/
def Kind.done : Kind → Option Nat
  | .queue d => d
  | _ => none

/-- The calls and events of the model of kernel/mpq.c:235-1688, include/kernel/mp_queue.h:30-250. -/
inductive Act
  | spawn
  | create (max : Nat) (nonblock : Bool)
  | start (t q : Nat) (k : Kind) (a : Args)
  | add (t : Nat)
  | wake (t : Nat)
  | syncRet (t : Nat)
  | put (t : Nat)
  | inlRet (t : Nat)
  | destroy (t q : Nat)
  | dset (t : Nat)
  | dput (t : Nat)
  | take (q : Nat)
  | invoke (q : Nat) (m : Mode)
  | loopEnd (q : Nat)
  | ret (q : Nat)
  | done (q : Nat)
  | freeRet (q : Nat)
  | fin (q : Nat)
  | sig (q : Nat) (w : Nat)
  | exit (q : Nat)
  | uninst (q : Nat)
  | seenOne (q : Nat)
  | drained (q : Nat)
  | free (q : Nat)
deriving DecidableEq, Repr

/-- Belongs to the model of kernel/mpq.c:235-1688, include/kernel/mp_queue.h:30-250. -/
def St.setQ (s : St) (i : Nat) (q : Q) : St := { s with qs := s.qs.set i q }
/-- Belongs to the model of kernel/mpq.c:235-1688, include/kernel/mp_queue.h:30-250. -/
def St.setT (s : St) (t : Nat) (th : Thr) : St := { s with thr := s.thr.set t th }
/-- Belongs to the model of kernel/mpq.c:235-1688, include/kernel/mp_queue.h:30-250. -/
def St.emit (s : St) (e : Ev) : St := { s with log := s.log ++ [e] }

/-- `__mpq_get`: only an installed queue is found.  kernel/mpq.c:235-259. -/
def St.find (s : St) (i : Nat) : Option Q :=
  match s.qs[i]? with
  | some q => if q.installed then some q else none
  | none => none

/-- A new thread that is no queue's thread. Belongs to the model of kernel/mpq.c:235-1688, include/kernel/mp_queue.h:30-250. -/
def doSpawn (s : St) : St := { s with thr := s.thr ++ [{ this := none, op := .idle, inl := [] }] }

/-- include/api/aosl_mpq.h:80. -/
def mpqMaxSize : Nat := 1000000

/-- `__mpq_create` / `__q_create` / `mpq_thread_entry` (kernel/mpq.c:855-1045): a new
queue with its thread; a size below 1 or above 1000000 is refused. -/
def doCreate (s : St) (max : Nat) (nonblock : Bool) : St :=
  if max < 1 ∨ mpqMaxSize < max then s
  else
    { s with
      qs := s.qs ++ [{ thr := s.thr.length, max := max, nonblock := nonblock, installed := true, usage := 1,
                       term := false, stage := .live, phase := .poll, pend := [], batch := [], count := 0 }]
      thr := s.thr ++ [{ this := some s.qs.length, op := .idle, inl := [] }] }

/-- Is user code able to run on this thread: not the thread of a freed queue. Belongs to the model of kernel/mpq.c:235-1688, include/kernel/mp_queue.h:30-250. -/
def St.alive (s : St) (th : Thr) : Bool :=
  match th.this with
  | none => true
  | some i => match s.qs[i]? with
    | some q => q.stage ≠ .dead
    | none => false

/-- Entry of the queueing calls up to the decision between inline execution and
`____add_f`: kernel/mpq.c:1316-1420 (`__add_func_*_qid`, `__add_func_*`),
1232-1276 (`__add_or_invoke_f`). -/
def doStart (s : St) (t qi : Nat) (k : Kind) (a : Args) : Option St := do
  let th ← s.thr[t]?
  if th.op ≠ .idle ∨ s.alive th = false then none
  else
    let own : Bool := th.this = some qi
    let sync := k.sync own
    let done := k.done
    let n := s.next
    let s := ({ s with next := n + 1 } : St).emit (.called t qi n sync done)
    if k.treatThis ∧ own then
      -- __mpq_get_or_this gave our own queue: argument check, then inline
      match argsErr a with
      | some rc => some (s.emit (.result t qi n sync rc))
      | none => some ((s.setT t { th with inl := n :: th.inl }).emit (.inlined qi n))
    else
      match s.find qi with
      | none => some (s.emit (.result t qi n sync .einval))
      | some q =>
        let s := s.setQ qi { q with usage := q.usage + 1 }
        let fo : Fo := { n := n, compl := false, sync := if sync then some t else none, done := done, noFail := false }
        match argsErr a with
        | some rc => some (s.setT t { th with op := .put qi fo rc })
        | none => some (s.setT t { th with op := .got qi fo })

/-- The thread's own queue has left its poll loop (`this_q->exiting`). Belongs to the model of kernel/mpq.c:235-1688, include/kernel/mp_queue.h:30-250. -/
def St.exitingThis (s : St) (th : Thr) : Bool :=
  match th.this with
  | none => false
  | some i => match s.qs[i]? with
    | some q => q.stage ≠ .live
    | none => false

/-- The thread's own queue has been told to terminate (`this_q->terminated`). Belongs to the model of kernel/mpq.c:235-1688, include/kernel/mp_queue.h:30-250. -/
def St.termThis (s : St) (th : Thr) : Bool :=
  match th.this with
  | none => false
  | some i => match s.qs[i]? with
    | some q => q.term
    | none => false

/-- One pass of the locked loop of `____add_f`.  kernel/mpq.c:425-486. -/
def lockedAdd (s : St) (t : Nat) (th : Thr) (qi : Nat) (q : Q) (fo : Fo) : St :=
  if fo.noFail = true ∨ q.count < q.max then
    let s := s.setQ qi { q with pend := q.pend ++ [fo], count := q.count + 1 }
    let s := s.setT t { th with op := if fo.sync.isSome then .syncWait qi fo false else .put qi fo .ok }
    s.emit (.queued qi fo.n fo.compl)
  else if q.nonblock then s.setT t { th with op := .put qi fo .eagain }
  else if s.termThis th then s.setT t { th with op := .put qi fo .eintr }
  else s.setT t { th with op := .asleep qi fo }

/-- `____add_f` (kernel/mpq.c:371-491) from its entry or from a wake-up: the EPERM
check is made only at entry. -/
def doAdd (s : St) (t : Nat) : Option St := do
  let th ← s.thr[t]?
  match th.op with
  | .got qi fo => do
    let q ← s.qs[qi]?
    if s.exitingThis th = true ∧ fo.done.isSome ∧ fo.done = th.this then
      some (s.setT t { th with op := .put qi fo .eperm })
    else some (lockedAdd s t th qi q fo)
  | .woken qi fo => do
    let q ← s.qs[qi]?
    some (lockedAdd s t th qi q fo)
  | _ => none

/-- Condition variables may wake up spuriously. Belongs to the model of kernel/mpq.c:235-1688, include/kernel/mp_queue.h:30-250. -/
def doWake (s : St) (t : Nat) : Option St := do
  let th ← s.thr[t]?
  match th.op with
  | .asleep qi fo => some (s.setT t { th with op := .woken qi fo })
  | _ => none

/-- The synchronous caller sees `result == FO_EXECUTED`.  kernel/mpq.c:445-459. -/
def doSyncRet (s : St) (t : Nat) : Option St := do
  let th ← s.thr[t]?
  match th.op with
  | .syncWait qi fo true => some (s.setT t { th with op := .put qi fo .ok })
  | _ => none

/-- `__mpq_put` and return.  kernel/mpq.c:1338-1346, 640-646. -/
def doPut (s : St) (t : Nat) : Option St := do
  let th ← s.thr[t]?
  match th.op with
  | .put qi fo rc => do
    let q ← s.qs[qi]?
    let s := (s.setQ qi { q with usage := q.usage - 1 }).setT t { th with op := .idle }
    if fo.compl then some s else some (s.emit (.result t qi fo.n fo.sync.isSome rc))
  | _ => none

/-- The inlined function returns.  kernel/mpq.c:1266-1269. -/
def doInlRet (s : St) (t : Nat) : Option St := do
  let th ← s.thr[t]?
  match th.op, th.inl, th.this with
  | .idle, n :: rest, some qi =>
    some (((s.setT t { th with inl := rest }).emit (.inlineRet qi n)).emit (.result t qi n true .ok))
  | _, _, _ => none

/-- `mpq_destroy`: `__mpq_get`.  kernel/mpq.c:1672-1687. -/
def doDestroy (s : St) (t qi : Nat) : Option St := do
  let th ← s.thr[t]?
  if th.op ≠ .idle ∨ s.alive th = false then none
  else
    match s.find qi with
    | none => some s
    | some q => some ((s.setQ qi { q with usage := q.usage + 1 }).setT t { th with op := .dgot qi })

/-- `__mpq_destroy`: `q->terminated = 1`.  kernel/mpq.c:1643. -/
def doDset (s : St) (t : Nat) : Option St := do
  let th ← s.thr[t]?
  match th.op with
  | .dgot qi => do
    let q ← s.qs[qi]?
    some ((s.setQ qi { q with term := true }).setT t { th with op := .dterm qi })
  | _ => none

/-- `k_cond_broadcast (&this_q->wait_q)`. Belongs to the model of kernel/mpq.c:235-1688, include/kernel/mp_queue.h:30-250. -/
def wakeOn (this : Option Nat) (th : Thr) : Thr :=
  match th.op with
  | .asleep qi fo => if this = some qi then { th with op := .woken qi fo } else th
  | _ => th

/-- `__mpq_destroy`, waking those blocked on the caller's own queue, and `__mpq_put`.
kernel/mpq.c:1648-1669, 1688. -/
def doDput (s : St) (t : Nat) : Option St := do
  let th ← s.thr[t]?
  match th.op with
  | .dterm qi => do
    let q ← s.qs[qi]?
    let s := { s with thr := s.thr.map (wakeOn th.this) }
    some ((s.setQ qi { q with usage := q.usage - 1 }).setT t { th with op := .idle })
  | _ => none

/-- The queue's thread is not inside user code's library call or inline function. Belongs to the model of kernel/mpq.c:235-1688, include/kernel/mp_queue.h:30-250. -/
def St.free (s : St) (q : Q) : Bool :=
  match s.thr[q.thr]? with
  | some th => th.op = .idle ∧ th.inl = []
  | none => false

/-- Steps of the queue's own thread.  Every one of them requires that the thread
is not inside a library call made by a callback. Belongs to the model of kernel/mpq.c:235-1688, include/kernel/mp_queue.h:30-250. -/
def ownStep (s : St) (qi : Nat) (f : Q → Option St) : Option St := do
  let q ← s.qs[qi]?
  if s.free q then f q else none

/-- Entry of `__check_and_call_funcs`: the whole list is swapped out under the lock.
kernel/mpq.c:683-691. -/
def doTake (s : St) (qi : Nat) : Option St := ownStep s qi fun q =>
  match q.phase, q.stage with
  | .poll, .fini => none
  | .poll, .dead => none
  | .poll, _ =>
    if q.pend = [] then none
    else some (s.setQ qi { q with batch := q.pend, pend := [], phase := .next })
  | _, _ => none

/-- `__process_fo`, `__invoke_f`: the function is called.  kernel/mpq.c:693-696, 624-634. -/
def doInvoke (s : St) (qi : Nat) (m : Mode) : Option St := ownStep s qi fun q =>
  match q.phase, q.batch with
  | .next, fo :: rest =>
    some ((s.setQ qi { q with batch := rest, phase := .run fo m }).emit (.invoked qi fo.n fo.compl m fo.done))
  | _, _ => none

/-- The `while (head != NULL)` loop ends.  kernel/mpq.c:693. -/
def doLoopEnd (s : St) (qi : Nat) : Option St := ownStep s qi fun q =>
  match q.phase, q.batch with
  | .next, [] => some (s.setQ qi { q with phase := .poll })
  | _, _ => none

/-- The function returns to `q_invoke_f`. Belongs to the model of kernel/mpq.c:235-1688, include/kernel/mp_queue.h:30-250. -/
def doRet (s : St) (qi : Nat) : Option St := ownStep s qi fun q =>
  match q.phase with
  | .run fo m => some ((s.setQ qi { q with phase := .post fo m }).emit (.returned qi fo.n fo.compl m fo.done))
  | _ => none

/-- Completion handling of `__invoke_f`.  kernel/mpq.c:637-651. -/
def doDone (s : St) (qi : Nat) : Option St := ownStep s qi fun q =>
  match q.phase with
  | .post fo m =>
    match fo.done with
    | none => some (s.setQ qi { q with phase := .fin fo })
    | some d =>
      if m = .freeOnly then some (s.setQ qi { q with phase := .fin fo })
      else
        match s.find d with
        | none => some ((s.setQ qi { q with phase := .runFree fo }).emit (.localFree qi fo.n))
        | some _ =>
          let s := s.setQ qi { q with phase := .fin fo }
          match s.qs[d]?, s.thr[q.thr]? with
          | some dq, some th =>
            let c : Fo := { n := fo.n, compl := true, sync := none, done := none, noFail := true }
            some ((s.setQ d { dq with usage := dq.usage + 1 }).setT q.thr { th with op := .got d c })
          | _, _ => none
  | _ => none

/-- The local free-only completion returns. Belongs to the model of kernel/mpq.c:235-1688, include/kernel/mp_queue.h:30-250. -/
def doFreeRet (s : St) (qi : Nat) : Option St := ownStep s qi fun q =>
  match q.phase with
  | .runFree fo => some (s.setQ qi { q with phase := .fin fo })
  | _ => none

/-- `__process_fo` after the invocation: free, count down, tell a synchronous caller.
kernel/mpq.c:660-671. -/
def doFin (s : St) (qi : Nat) : Option St := ownStep s qi fun q =>
  match q.phase with
  | .fin fo =>
    let s := (s.setQ qi { q with phase := .sig, count := q.count - 1 }).emit (.finished qi fo.n fo.compl)
    match fo.sync with
    | none => some s
    | some t =>
      match s.thr[t]? with
      | some th =>
        if th.op = .syncWait qi fo false then some (s.setT t { th with op := .syncWait qi fo true })
        else some { s with bad := true }
      | none => some { s with bad := true }
  | _ => none

/-- Does this thread sleep on `wait_q` of queue `i`?. Belongs to the model of kernel/mpq.c:235-1688, include/kernel/mp_queue.h:30-250. -/
def asleepOn (i : Nat) (th : Thr) : Bool :=
  match th.op with
  | .asleep qi _ => qi = i
  | _ => false

/-- `if (q->wait_q_count > 0) k_cond_signal (&q->wait_q)`: one sleeper `w` of the
environment's choice is woken, nothing happens if there is none.  kernel/mpq.c:698-702. -/
def doSig (s : St) (qi w : Nat) : Option St := ownStep s qi fun q =>
  match q.phase with
  | .sig =>
    let s' := s.setQ qi { q with phase := .next }
    if s.thr.any (asleepOn qi) then
      match s.thr[w]? with
      | some th =>
        match th.op with
        | .asleep qj fo => if qj = qi then some (s'.setT w { th with op := .woken qj fo }) else none
        | _ => none
      | none => none
    else some s'
  | _ => none

/-- End of the poll loop: `exiting = 1`.  kernel/mpq.c:784-787. -/
def doExit (s : St) (qi : Nat) : Option St := ownStep s qi fun q =>
  if q.phase = .poll ∧ q.stage = .live ∧ q.term = true then some (s.setQ qi { q with stage := .exiting }) else none

/-- `__q_wait_destroy`: `__mpq_id_uninstall`.  kernel/mpq.c:808. -/
def doUninst (s : St) (qi : Nat) : Option St := ownStep s qi fun q =>
  if q.phase = .poll ∧ q.stage = .exiting then some (s.setQ qi { q with stage := .uninst, installed := false }) else none

/-- `while (atomic_read (&q->usage) > 1)` ends.  kernel/mpq.c:810-814. -/
def doSeenOne (s : St) (qi : Nat) : Option St := ownStep s qi fun q =>
  if q.phase = .poll ∧ q.stage = .uninst ∧ q.usage ≤ 1 then some (s.setQ qi { q with stage := .drain }) else none

/-- The draining loop sees an empty queue.  kernel/mpq.c:820-831. -/
def doDrained (s : St) (qi : Nat) : Option St := ownStep s qi fun q =>
  if q.phase = .poll ∧ q.stage = .drain ∧ q.pend = [] then some (s.setQ qi { q with stage := .fini }) else none

/-- `__q_destroy`: the queue object is freed.  kernel/mpq.c:833-845. -/
def doFree (s : St) (qi : Nat) : Option St := ownStep s qi fun q =>
  if q.phase = .poll ∧ q.stage = .fini then some (s.setQ qi { q with stage := .dead }) else none

/-- What one event does, in the model of kernel/mpq.c:235-1688, include/kernel/mp_queue.h:30-250. -/
def step (s : St) : Act → Option St
  | .spawn => some (doSpawn s)
  | .create m nb => some (doCreate s m nb)
  | .start t q k a => doStart s t q k a
  | .add t => doAdd s t
  | .wake t => doWake s t
  | .syncRet t => doSyncRet s t
  | .put t => doPut s t
  | .inlRet t => doInlRet s t
  | .destroy t q => doDestroy s t q
  | .dset t => doDset s t
  | .dput t => doDput s t
  | .take q => doTake s q
  | .invoke q m => doInvoke s q m
  | .loopEnd q => doLoopEnd s q
  | .ret q => doRet s q
  | .done q => doDone s q
  | .freeRet q => doFreeRet s q
  | .fin q => doFin s q
  | .sig q w => doSig s q w
  | .exit q => doExit s q
  | .uninst q => doUninst s q
  | .seenOne q => doSeenOne s q
  | .drained q => doDrained s q
  | .free q => doFree s q

/-- Run a schedule; `none` if some action is not enabled. Belongs to the model of kernel/mpq.c:235-1688, include/kernel/mp_queue.h:30-250. -/
def run (s : St) : List Act → Option St
  | [] => some s
  | a :: as => match step s a with
    | some s' => run s' as
    | none => none

/-- States that some schedule reaches. Belongs to the model of kernel/mpq.c:235-1688, include/kernel/mp_queue.h:30-250. -/
def Reachable (s : St) : Prop := ∃ acts, run init acts = some s

end Verif.Mpq
