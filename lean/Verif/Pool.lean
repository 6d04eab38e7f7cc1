/-!
# Queue pools (kernel/mpqp.c)

An interleaving model of one pool of `/repo/kernel/mpqp.c`, its queues and any number of outside threads.  One action is one critical
section of the pool lock `qp->lock`, or one step of a queue's thread.

Simplifications: a queue is its list of pending functions (the queue machinery has its own model, `Verif.Mpq`: functions added to a
queue are executed once, in the order they were added, also those still pending when the queue is destroyed, which is what this model
takes over); a queue handle is the index of the queue and is never reused (see `Verif.IdTable`); whether creating a queue succeeds is
chosen by the environment; a function refused because the queue is full is no action at all; completions (`done_qid`) and the reference object are left
out.  The log is a list of observable events which the model never reads.
-/

namespace Verif.Pool

/-- What a queue's thread executes: a function a user queued, the promise `____each_pool_promise_f` of a tail call, or the callback of the idle timer
(kernel/mpqp.c:103-134, 730-764). -/
inductive Item
  | job (j : Nat)
  | promise (p : Nat)
  | timer
deriving DecidableEq, Repr

/-- A queue of the pool, and the references `__mpqp_best_q_get` holds on it. Belongs to the model of kernel/mpqp.c:26-1055, kernel/mpq.c:441-1671. -/
structure Q where
  pend : List Item
  run : Option Item
  /-- callers between `__mpqp_best_q_get` and `__mpqp_best_q_put` -/
  hold : Nat
  /-- `terminated` -/
  term : Bool
  /-- the thread has ended -/
  gone : Bool
  /-- queues whose end the thread waits for inside the item it runs (`__mpq_destroy_wait`) -/
  waits : List Nat
deriving DecidableEq, Repr

/-- `struct pool_entry` (kernel/mpqp.c:26-29). -/
structure Entry where
  q : Nat
  usage : Nat
deriving DecidableEq, Repr

/-- Observable events. Belongs to the model of kernel/mpqp.c:26-1055, kernel/mpq.c:441-1671. -/
inductive Ev
  /-- function `j` was added to queue `q` -/
  | queued (q j : Nat)
  /-- function `j` has returned -/
  | finished (j : Nat)
  /-- tail call `p`, made while the pool consisted of the queues `qs` -/
  | tail (p : Nat) (qs : List Nat)
  /-- the function of tail call `p` is invoked -/
  | tailRan (p : Nat)
  /-- `aosl_mpq_alloc` returned queue `q` -/
  | alloc (q : Nat)
  /-- `aosl_mpq_free (q)` returned 0 -/
  | free (q : Nat)
  /-- it failed with EPERM -/
  | freePerm (q : Nat)
  /-- it failed with EINVAL -/
  | freeInval (q : Nat)
  /-- shrinking took queue `q` out of the pool -/
  | shrunk (q : Nat)
  /-- shrinking failed with EPERM -/
  | shrinkPerm
  /-- every queue was taken out of the pool by force -/
  | shrunkAll
deriving DecidableEq, Repr

structure St where
  /-- `pool_size` -/
  size : Nat
  /-- `pool_entries [0 .. q_count - 1]` -/
  pool : List Entry
  /-- every queue ever created for the pool -/
  qs : List Q
  /-- `*count_p` of every tail call so far -/
  cnt : List Int
  /-- number of functions queued so far -/
  nj : Nat
  /-- the queues `aosl_mpqp_destroy` waits for (kernel/mpqp.c:889-934), if it has been called -/
  dtor : Option (List Nat)
  /-- `aosl_free (qp)` was done -/
  freed : Bool
  /-- a freed pool was accessed, or an entry outside of the array was written -/
  ub : Bool
  log : List Ev
deriving DecidableEq, Repr

/-- kernel/mpqp.c:478-521 (`__mpqp_create`). -/
def init (size : Nat) : St :=
  { size := size, pool := [], qs := [], cnt := [], nj := 0, dtor := none, freed := false, ub := false, log := [] }

/-- Belongs to the model of kernel/mpqp.c:26-1055, kernel/mpq.c:441-1671. -/
def newQ : Q := { pend := [], run := none, hold := 0, term := false, gone := false, waits := [] }

/-- The functions in a queue that have not returned yet, in order. Belongs to the model of kernel/mpqp.c:26-1055, kernel/mpq.c:441-1671. -/
def Q.items (x : Q) : List Item := x.run.toList ++ x.pend

/-- `atomic_read (&q->count)`: functions added and not yet completed (kernel/mpq.c:441, 667), plus callers in between
`__mpqp_best_q_get` and `__mpqp_best_q_put` (kernel/mpqp.c:219-222, 262-266).  The callback of a timer does not count. -/
def Q.load (x : Q) : Nat := (x.items.filter (· ≠ .timer)).length + x.hold

/-- Belongs to the model of kernel/mpqp.c:26-1055, kernel/mpq.c:441-1671. -/
def loadOf (s : St) (q : Nat) : Nat := match s.qs[q]? with
  | some x => x.load
  | none => 0

/-- The loop of `__mpqp_find_best_q_locked` and of `__mpqp_find_best_alloc_entry_locked` (kernel/mpqp.c:55-82). -/
def best (key : Entry → Nat) (b : Option Nat) (i : Nat) : List Entry → List Entry → Option Nat
  | _, [] => b
  | all, e :: es =>
    match b.bind (all[·]?) with
    | none => best key (some i) (i + 1) all es
    | some be => if key e < key be then best key (some i) (i + 1) all es else best key b (i + 1) all es

/-- Belongs to the model of kernel/mpqp.c:26-1055, kernel/mpq.c:441-1671. -/
def bestQ (s : St) : Option Nat := best (fun e => loadOf s e.q) none 0 s.pool s.pool
/-- Belongs to the model of kernel/mpqp.c:26-1055, kernel/mpq.c:441-1671. -/
def bestAlloc (s : St) : Option Nat := best (fun e => e.usage) none 0 s.pool s.pool

/-- kernel/mpqp.c:184-204 (`__pool_create_add_mpq_locked`), successful creation: a new queue with usage 1 in the entry after the last.
`pool_entries` has `pool_size` elements. -/
def addQ (s : St) : St :=
  { s with pool := s.pool ++ [{ q := s.qs.length, usage := 1 }], qs := s.qs ++ [newQ],
           ub := s.ub || decide (s.size ≤ s.pool.length) }

/-- Belongs to the model of kernel/mpqp.c:26-1055, kernel/mpq.c:441-1671. -/
def modQ (s : St) (q : Nat) (f : Q → Q) : St := match s.qs[q]? with
  | some x => { s with qs := s.qs.set q (f x) }
  | none => s

/-- Belongs to the model of kernel/mpqp.c:26-1055, kernel/mpq.c:441-1671. -/
def emit (s : St) (e : Ev) : St := { s with log := s.log ++ [e] }

/-- kernel/mpqp.c:206-225 (`__mpqp_best_q_get`): the entry chosen, and the pool. -/
def bestGet (s : St) (ok : Bool) : Option Nat × St :=
  let b := bestQ s
  let busy : Bool := match b.bind (s.pool[·]?) with
    | none => true
    | some e => decide (0 < loadOf s e.q ∧ s.pool.length < s.size)
  let r : Option Nat × St := if busy && ok then (some s.pool.length, addQ s) else (b, s)
  match r.1.bind (r.2.pool[·]?) with
  | none => (none, r.2)
  | some e => (some e.q, modQ r.2 e.q (fun x => { x with hold := x.hold + 1 }))

/-- kernel/mpqp.c:238-259 (`__mpqp_best_entry_get_or_alloc`), 1006-1015 (`aosl_mpq_alloc`). -/
def alloc (s : St) (ok : Bool) : Option Nat × St :=
  let b := bestAlloc s
  let busy : Bool := match b.bind (s.pool[·]?) with
    | none => true
    | some e => decide (1 < e.usage ∧ s.pool.length < s.size)
  let r : Option Nat × St := if busy && ok then (some s.pool.length, addQ s) else (b, s)
  match r.1, r.1.bind (r.2.pool[·]?) with
  | some i, some e => (some e.q, { r.2 with pool := r.2.pool.set i { e with usage := e.usage + 1 }, log := r.2.log ++ [.alloc e.q] })
  | _, _ => (none, r.2)

/-- kernel/mpqp.c:84-95 (`__mpqp_find_entry_with_qid_locked`). -/
def findQid (q : Nat) (i : Nat) : List Entry → Option (Nat × Entry)
  | [] => none
  | e :: es => if e.q = q then some (i, e) else findQid q (i + 1) es

/-- kernel/mpqp.c:1017-1040 (`aosl_mpq_free`). -/
def free (s : St) (q : Nat) : St := match findQid q 0 s.pool with
  | some (i, e) => if 1 < e.usage then { s with pool := s.pool.set i { e with usage := e.usage - 1 }, log := s.log ++ [.free q] } else emit s (.freePerm q)
  | none => emit s (.freeInval q)

/-- kernel/mpqp.c:766-821 (`__mpqp_pool_tail_queue_argv`): a queue is created if there is none; the counter starts at the number of
queues; the promise goes to the tail of every queue. -/
def tail (s : St) (ok : Bool) : St :=
  if s.pool = [] ∧ ok = false then s
  else
    let s1 := if s.pool = [] then addQ s else s
    let ids := s1.pool.map (·.q)
    { s1 with cnt := s1.cnt ++ [(ids.length : Int)], log := s1.log ++ [.tail s1.cnt.length ids],
              qs := s1.qs.mapIdx (fun i x => if i ∈ ids then { x with pend := x.pend ++ [.promise s1.cnt.length] } else x) }

/-- `terminated = 1` (kernel/mpq.c:1639-1671). -/
def setTerm (s : St) (q : Nat) : St := modQ s q (fun x => { x with term := true })

/-- The calling queue, if the call is made by a queue's thread and waits for other queues (`THIS_MPQ () == q` is not waited for). Belongs to the model of kernel/mpqp.c:26-1055, kernel/mpq.c:441-1671. -/
def setWaits (s : St) (caller : Option Nat) (wait : Bool) (targets : List Nat) : St := match caller with
  | some c => if wait then modQ s c (fun x => { x with waits := targets.filter (· ≠ c) }) else s
  | none => s

/-- kernel/mpqp.c:865-905 (`__mpqp_shrink`). -/
def shrink (s : St) (caller : Option Nat) (wait : Bool) : St :=
  if 1 < s.pool.length then
    match s.pool.getLast? with
    | some e =>
      if e.usage = 1 then emit (setWaits (setTerm { s with pool := s.pool.dropLast } e.q) caller wait [e.q]) (.shrunk e.q)
      else emit s .shrinkPerm
    | none => emit s .shrinkPerm
  else emit s .shrinkPerm

/-- kernel/mpqp.c:907-962 (`__mpqp_shrink_all`). -/
def shrinkAll (s : St) (caller : Option Nat) (wait : Bool) : St :=
  let ids := s.pool.map (·.q)
  emit (setWaits { s with pool := [], qs := s.qs.mapIdx (fun i x => if i ∈ ids then { x with term := true } else x) } caller wait ids) .shrunkAll

inductive Act
  /-- `__mpqp_best_q_get` by any thread; `ok`: creating a queue would succeed -/
  | get (ok : Bool)
  /-- `__mpqp_best_q_put` -/
  | put (q : Nat)
  /-- a function is added to queue `q`, by a pool call or directly -/
  | queue (q : Nat)
  | tail (ok : Bool)
  /-- the thread of queue `q` takes the next function and calls it -/
  | start (q : Nat)
  /-- the function returns -/
  | finish (q : Nat)
  /-- the idle timer fires in queue `q` (kernel/mpqp.c:103-134; it reads the pool) -/
  | tick (q : Nat)
  | alloc (ok : Bool)
  | free (q : Nat)
  /-- by an outside thread (`none`) or from a function of a queue of the pool -/
  | shrink (caller : Option Nat) (wait : Bool)
  | shrinkAll (caller : Option Nat) (wait : Bool)
  /-- the thread of queue `q` ends, calling `__mpqp_q_fini`, which reads the pool (kernel/mpqp.c:172-178, mpq.c:800-852) -/
  | exit (q : Nat)
  /-- `aosl_mpqp_destroy` by an outside thread, up to the waiting (kernel/mpqp.c:1047-1055) -/
  | destroy (wait : Bool)
  /-- its end: `aosl_free (qp)` -/
  | freePool
deriving DecidableEq, Repr

/-- May thread `caller` make a call now?  A queue's thread only inside a function, and not while it waits. Belongs to the model of kernel/mpqp.c:26-1055, kernel/mpq.c:441-1671. -/
def canCall (s : St) : Option Nat → Bool
  | none => true
  | some c => match s.qs[c]? with
    | some x => x.run.isSome && x.waits.isEmpty && !x.gone
    | none => false

/-- Belongs to the model of kernel/mpqp.c:26-1055, kernel/mpq.c:441-1671. -/
def allGone (s : St) (l : List Nat) : Bool := l.all fun q => match s.qs[q]? with
  | some x => x.gone
  | none => true

/-- The pool exists and `aosl_mpqp_destroy` was not called (calls on a destroyed pool are errors of the caller). Belongs to the model of kernel/mpqp.c:26-1055, kernel/mpq.c:441-1671. -/
def usable (s : St) : Bool := s.dtor.isNone

/-- What one event does, in the model of kernel/mpqp.c:26-1055, kernel/mpq.c:441-1671. -/
def step (s : St) : Act → Option St
  | .get ok => if usable s then some (bestGet s ok).2 else none
  | .put q => match s.qs[q]? with
    | some x => if 0 < x.hold then some { s with qs := s.qs.set q { x with hold := x.hold - 1 } } else none
    | none => none
  | .queue q => match s.qs[q]? with
    | some x => if x.gone then none
      else some { s with qs := s.qs.set q { x with pend := x.pend ++ [.job s.nj] }, nj := s.nj + 1, log := s.log ++ [.queued q s.nj] }
    | none => none
  | .tail ok => if usable s then some (tail s ok) else none
  | .start q => match s.qs[q]? with
    | some x => match x.run, x.pend with
      | none, .promise p :: rest =>
        let c := (s.cnt[p]?.getD 0) - 1
        some { s with qs := s.qs.set q { x with pend := rest, run := some (.promise p) }, cnt := s.cnt.set p c,
                      log := if c = 0 then s.log ++ [.tailRan p] else s.log }
      | none, i :: rest => some { s with qs := s.qs.set q { x with pend := rest, run := some i } }
      | _, _ => none
    | none => none
  | .finish q => match s.qs[q]? with
    | some x => match x.run with
      | some i => if allGone s x.waits then
          some { s with qs := s.qs.set q { x with run := none, waits := [] },
                        log := match i with | .job j => s.log ++ [.finished j] | _ => s.log }
        else none
      | none => none
    | none => none
  | .tick q => match s.qs[q]? with
    | some x => match x.run with
      | none => if x.gone then none else some { s with qs := s.qs.set q { x with run := some .timer }, ub := s.ub || s.freed }
      | some _ => none
    | none => none
  | .alloc ok => if usable s then some (alloc s ok).2 else none
  | .free q => if usable s then some (free s q) else none
  | .shrink c w => if usable s && canCall s c then some (shrink s c w) else none
  | .shrinkAll c w => if usable s && canCall s c then some (shrinkAll s c w) else none
  | .exit q => match s.qs[q]? with
    | some x => if x.term && x.pend.isEmpty && x.run.isNone && (x.hold == 0) && !x.gone then
        some { s with qs := s.qs.set q { x with gone := true }, ub := s.ub || s.freed }
      else none
    | none => none
  | .destroy w => if usable s then some { shrinkAll s none w with dtor := some (if w then s.pool.map (·.q) else []) } else none
  | .freePool => match s.dtor with
    | some l => if s.freed = false ∧ allGone s l = true then some { s with freed := true } else none
    | none => none

/-- One event after the other, in the model of kernel/mpqp.c:26-1055, kernel/mpq.c:441-1671; no code of its own. -/
def run (s : St) : List Act → Option St
  | [] => some s
  | a :: as => match step s a with
    | some s' => run s' as
    | none => none

/-- States of a pool of size `size ≥ 1` (others are refused by `__mpqp_create`, kernel/mpqp.c:483-486). -/
def Reachable (s : St) : Prop := ∃ size acts, 1 ≤ size ∧ run (init size) acts = some s

/-- Creating a pool: kernel/mpqp.c:478-486, with MPQP_MAX_SIZE and MPQ_MAX_SIZE. -/
def createOk (poolSize max maxIdles : Int) : Bool :=
  !(decide (poolSize < 1 ∨ 65536 < poolSize) || decide (max < 1 ∨ 1000000 < max) || decide (maxIdles = 0 ∨ 715827882 < maxIdles))

/-- The four built-in pools after `k_mpqp_init` (kernel/mpqp.c:51-54, 616-620): only `ltw_pool` is created. -/
structure BuiltIn where
  cpu : Option St
  gpu : Option St
  gen : Option St
  ltw : Option St

/-- The state at the beginning, in the model of kernel/mpqp.c:26-1055, kernel/mpq.c:441-1671. -/
def kInit : BuiltIn := { cpu := none, gpu := none, gen := none, ltw := some (init 2) }

/-- Result of the public calls; `crash` is the use of a NULL pool pointer. Belongs to the model of kernel/mpqp.c:26-1055, kernel/mpq.c:441-1671. -/
inductive Res | ok (q : Nat) | fail | crash
deriving DecidableEq, Repr

/-- `aosl_mpq_alloc ()` works on `gen_pool` (kernel/mpqp.c:1006-1015). -/
def apiAlloc (b : BuiltIn) (ok : Bool) : Res := match b.gen with
  | none => .crash
  | some s => match (alloc s ok).1 with
    | some q => .ok q
    | none => .fail

end Verif.Pool
