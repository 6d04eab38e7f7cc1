/-!
# The promise of a pool tail call

Models `____each_pool_promise_f` (/repo/kernel/mpqp.c:727-758) as the queues of the pool run it, one each, in any interleaving, for one
call of `__mpqp_pool_tail_queue_argv` (760-821), with the memory it shares: the counter (mpqp.c:769) and the copy of the name (793).

A queue's object is what mpq.c:571-613 found for the call's reference when that queue began with the promise; that it stays what it is
during the promise is RefObj's.  The words given with the function are copied into each promise (mpqp.c:796-805), so nobody shares them.
The invocation itself is one step.
-/
namespace Verif.PoolDone

/-- What is handed to a function as its object: NULL, an object, or the mark that says "only free" (mpq.c:571-613). -/
inductive Obj
  | null
  | obj (id : Nat)
  | freeOnly
deriving DecidableEq, Repr

/-- What happens with the function: it is invoked with an object and words on a queue of the pool (mpqp.c:738, 749), or queued to the
done queue for an object (mpqp.c:746). -/
inductive Ev
  | invoked (o : Obj) (argv : List Nat)
  | queuedDone (ref : Option Nat) (argv : List Nat)
deriving DecidableEq, Repr

/-- The call: how many queues the pool has, whether there is a done queue, whether there is a name, the words. Belongs to the model of
kernel/mpqp.c:760-821. -/
structure Call where
  n : Nat
  hasDone : Bool
  name : Bool
  argv : List Nat
deriving DecidableEq, Repr

/-- Where a queue stands in the promise. Belongs to the model of kernel/mpqp.c:727-758. -/
inductive Pc
  /-- has not counted down (before mpqp.c:730) -/
  | wait
  /-- was the last, about to free the counter (736) -/
  | last (o : Obj)
  /-- about to invoke the function (738) -/
  | invoke (o : Obj)
  /-- about to see to the completion (741-751) -/
  | complete (o : Obj)
  /-- about to free the name (754-755) -/
  | free
  /-- through -/
  | fin
deriving DecidableEq, Repr

/-- The state: the counter, how often the counter's memory and the name have been freed, what happened, and whether memory was used after it was freed. Belongs to the model of kernel/mpqp.c:727-758. -/
structure St where
  cnt : Int
  cntFreed : Nat
  nameFreed : Nat
  pcs : List Pc
  log : List Ev
  bad : Bool
deriving DecidableEq, Repr

/-- kernel/mpqp.c:788, 769-796: the counter is the number of queues. -/
def init (c : Call) : St := { cnt := c.n, cntFreed := 0, nameFreed := 0, pcs := List.replicate c.n .wait, log := [], bad := false }

/-- mpqp.c:744-745: the reference the completion is queued for. -/
def refOf : Obj → Option Nat
  | .obj i => some i
  | _ => none

/-- One step of queue `i`; `o`: its object, `there`: the done queue can be found (mpqp.c:742). Models kernel/mpqp.c:727-758. -/
def step (c : Call) (s : St) (i : Nat) (o : Obj) (there : Bool) : Option St :=
  match s.pcs[i]? with
  | some .wait =>
    some { s with cnt := s.cnt - 1, bad := s.bad || decide (0 < s.cntFreed),
                  pcs := s.pcs.set i (if s.cnt - 1 = 0 then .last o else .fin) }
  | some (.last o) => some { s with cntFreed := s.cntFreed + 1, pcs := s.pcs.set i (.invoke o) }
  | some (.invoke o) =>
    some { s with log := s.log ++ [.invoked o c.argv], bad := s.bad || decide (0 < s.nameFreed), pcs := s.pcs.set i (.complete o) }
  | some (.complete o) =>
    if c.hasDone = true ∧ o ≠ .freeOnly then
      some { s with log := s.log ++ [if there then .queuedDone (refOf o) c.argv else .invoked .freeOnly c.argv],
                    bad := s.bad || decide (0 < s.nameFreed), pcs := s.pcs.set i .free }
    else some { s with pcs := s.pcs.set i .free }
  | some .free => some { s with nameFreed := s.nameFreed + (if c.name then 1 else 0), pcs := s.pcs.set i .fin }
  | _ => none

/-- The steps of the queues one after the other, in any order. Models no code of its own (kernel/mpqp.c:727-758 step by step). -/
def run (c : Call) (s : St) : List (Nat × Obj × Bool) → Option St
  | [] => some s
  | (i, o, b) :: as => (step c s i o b).bind fun s' => run c s' as

end Verif.PoolDone
