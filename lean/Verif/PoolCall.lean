/-!
# What a call on a pool reports

Models /repo/kernel/mpqp.c:57-83 (the choice of a queue), 180-203 (a new queue), 205-261 (the queue for a function, the entry for an
allocation), 273-331 (queueing a function), 760-821 (queueing a promise to every queue) and 1016-1046 (allocating a queue), with
/repo/include/kernel/err.h:25-47 (errors passed in pointers).

One call is one step: it is made under the pool's lock (for queueing: up to the choice of the queue, which is kept alive by the
reference taken at mpqp.c:222).  What the queues' threads take away meanwhile is left out, so is who waits for the lock (PoolInit) and
the room in a full queue seen by several callers (PoolFull).  Numbers stored in an `int` are unbounded here.
-/

namespace Verif.PoolCall

/-- An entry of the pool's table (mpqp.c:23-28): the queue's handle, the usage count, and the functions queued to it, oldest first
(`atomic_read (&q->count)` is their number). -/
structure Entry where
  id : Nat
  usage : Nat
  fns : List Nat
deriving DecidableEq, Repr

/-- kernel/mpqp.c:31-50: the table and what matters of the settings. -/
structure Pool where
  size : Nat
  qmax : Nat
  nonblock : Bool
  es : List Entry
deriving DecidableEq, Repr

/-- What `__mpq_create` answers (kernel/mpq.c:1001-1046): a queue, or NULL with `aosl_errno` being `e` (mpq.c:1043: what the new
thread had left there when its init function failed; mpq.c:1024: what the calling thread had when no thread could be started). -/
inductive Made
  | made (id : Nat)
  | failed (e : Int)
deriving DecidableEq, Repr

/-- The outcome of a call: its value and `aosl_errno`, waiting for room (kernel/mpq.c:483-485), or an access through a pointer that is
no pointer (kernel/mpqp.c:222, 256). -/
inductive Out
  | ret (v : Int) (errno : Int)
  | waits
  | crash
deriving DecidableEq, Repr

/-- What a pointer made by `ERR_PTR (-e)` looks like (include/kernel/err.h:25-47). -/
inductive Ptr
  | null
  | err (e : Int)
  | wild
  | at (i : Nat)
deriving DecidableEq, Repr

/-- include/kernel/err.h:25-47: an error pointer is recognised from -4095 to -1; the pointer made from 0 is NULL. -/
def errPtr (e : Int) : Ptr := if e = 0 then .null else if 1 ≤ e ∧ e ≤ 4095 then .err e else .wild

/-- kernel/mpqp.c:57-70 and 72-85: the first of the entries with the least key. -/
def best (key : Entry → Nat) : List Entry → Option Nat
  | [] => none
  | e :: es => match best key es with
    | none => some 0
    | some j => match es[j]? with
      | none => some 0
      | some b => if key b < key e then some (j + 1) else some 0

/-- kernel/mpqp.c:186-203: a new queue at the end of the table, with usage 1. -/
def addNew (p : Pool) (id : Nat) : Pool := { p with es := p.es ++ [{ id := id, usage := 1, fns := [] }] }

/-- kernel/mpqp.c:205-227 and 243-261: the entry with the least key, or a new one if there is none or `busy` says so and the table has
room. -/
def pick (key : Entry → Nat) (busy : Entry → Bool) (p : Pool) (m : Made) : Pool × Ptr :=
  match best key p.es with
  | none => match m with
    | .made id => (addNew p id, .at p.es.length)
    | .failed e => (p, errPtr e)
  | some i =>
    if (p.es[i]?.map busy).getD false = true ∧ p.es.length < p.size then
      match m with
      | .made id => (addNew p id, .at p.es.length)
      | .failed _ => (p, .at i)
    else (p, .at i)

/-- Replaces entry `i`. Used for kernel/mpqp.c:222-224, 256 and kernel/mpq.c:444-455. -/
def setE (p : Pool) (i : Nat) (g : Entry → Entry) : Pool := { p with es := p.es.modify i g }

/-- kernel/mpqp.c:273-331 with kernel/mpq.c:438-492: queueing function `f`.  The call itself counts as one function while it looks
whether there is room (mpqp.c:223). AOSL_EAGAIN is 1011. -/
def queue (p : Pool) (errno : Int) (m : Made) (f : Nat) : Pool × Out :=
  match pick (·.fns.length) (fun e => decide (0 < e.fns.length)) p m with
  | (p1, .at i) => match p1.es[i]? with
    | none => (p1, .crash)
    | some e =>
      if e.fns.length + 1 < p.qmax then (setE p1 i fun x => { x with fns := x.fns ++ [f] }, .ret e.id errno)
      else if p.nonblock then (p1, .ret (-1) 1011) else (p1, .waits)
  | (p1, .null) => (p1, .ret (-1) 0)
  | (p1, .err e) => (p1, .ret (-1) e)
  | (p1, .wild) => (p1, .crash)

/-- kernel/mpqp.c:1016-1046 with 243-261: allocating a queue. -/
def alloc (p : Pool) (errno : Int) (m : Made) : Pool × Out :=
  match pick (·.usage) (fun e => decide (1 < e.usage)) p m with
  | (p1, .at i) => match p1.es[i]? with
    | none => (p1, .crash)
    | some e => (setE p1 i fun x => { x with usage := x.usage + 1 }, .ret e.id errno)
  | (p1, .null) => (p1, .ret (-1) 0)
  | (p1, .err e) => (p1, .ret (-1) e)
  | (p1, .wild) => (p1, .crash)

/-- kernel/mpqp.c:801-805: the promise `f` at the tail of every queue. -/
def toAll (p : Pool) (f : Nat) : Pool := { p with es := p.es.map fun x => { x with fns := x.fns ++ [f] } }

/-- kernel/mpqp.c:760-821: queueing the promise `f` to every queue.  `mem` says whether the counter could be allocated (mpqp.c:769). -/
def tailQueue (p : Pool) (errno : Int) (mem : Bool) (m : Made) (f : Nat) : Pool × Out :=
  if mem = false then (p, .ret (-1) errno)
  else if p.es = [] then
    match m with
    | .failed e => let err := -e
                   if err < 0 then (p, .ret (-1) (-err)) else (p, .ret 0 e)
    | .made id => (toAll (addNew p id) f, .ret 0 errno)
  else (toAll p f, .ret 0 errno)

end Verif.PoolCall
