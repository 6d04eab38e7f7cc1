/-
  Model of the idle check of a queue pool: kernel/mpqp.c:97-170 (the timer of every pool queue), 184-204, 883-987 (taking queues
  out of the pool), mpq.c:441, 655-706, 770-798 (what `count` and `exec_funcs_count` hold).

  One pool with `max_idles` > 0 (without it there is no timer, mpqp.c:149-163), any number of queues over time, any interleaving.  Left out: how
  a queue is chosen for a function (C47), the waiting of the shrinking thread (C100), life ids (C18).  The usage count of an entry is 1:
  aosl_mpq_alloc, which alone raises it, works on the general pool only, which has no idle check (mpqp.c:574, 1037-1046).  The 64-bit counter and
  the `int` counter do not overflow in the life of a process.
-/
namespace Verif.PoolIdle

/-- A queue of the pool. -/
structure Q where
  /-- `exec_funcs_count` (mpq.c:775-777; timers run after a batch of functions, so that the timer sees every executed function) -/
  exec : Nat
  /-- `count`: functions queued and not finished -/
  load : Nat
  /-- `last_exec_funcs_count` of `struct mpqp_q_idle_stat` -/
  last : Nat
  /-- `idle_counter` -/
  idle : Nat
  /-- `terminated` -/
  term : Bool
  /-- the thread has ended -/
  gone : Bool
deriving DecidableEq, Repr

/-- What happens, also used as the log. -/
inductive Ev where
  /-- a queue is created for the pool (mpqp.c:184-204) -/
  | add
  /-- a function is queued to queue `q` (mpq.c:441) -/
  | queue (q : Nat)
  /-- queue `q` has executed a function (mpq.c:660-667, 777) -/
  | ran (q : Nat)
  /-- queue `q` has handled a descriptor's event or one of its user's timers (mpq.c:779-795): other counters -/
  | event (q : Nat)
  /-- a second has passed: the timer callback of queue `q` (mpqp.c:102-134) -/
  | tick (q : Nat)
  /-- the thread of queue `q` ends -/
  | exit (q : Nat)
deriving DecidableEq, Repr

/-- Data of the model of kernel/mpqp.c:97-170, mpq.c:441, 655-706, 770-798, mpqp.c:149-163. -/
structure St where
  qs : List Q
  /-- `pool_entries [0 .. q_count - 1]` -/
  pool : List Nat
  log : List Ev
deriving DecidableEq, Repr

/-- mpqp.c:478-521 -/
def St.init : St := ⟨[], [], []⟩

/-- mpq.c:890-909 and mpqp.c:149-163 -/
def Q.new : Q := ⟨0, 0, 0, 0, false, false⟩

/-- a running queue. Belongs to the model of kernel/mpqp.c:97-170, mpq.c:441, 655-706, 770-798, mpqp.c:149-163. -/
def St.live (s : St) (q : Nat) : Option Q :=
  match s.qs[q]? with
  | some x => if x.gone then none else some x
  | none => none

/-- Belongs to the model of kernel/mpqp.c:97-170, mpq.c:441, 655-706, 770-798, mpqp.c:149-163. -/
def St.setQ (s : St) (q : Nat) (x : Q) : St := { s with qs := s.qs.set q x }

/-- __mpq_destroy: the queue is told to end. Belongs to the model of kernel/mpqp.c:97-170, mpq.c:441, 655-706, 770-798, mpqp.c:149-163. -/
def St.endQ (s : St) (q : Nat) : St :=
  match s.qs[q]? with
  | some x => s.setQ q { x with term := true }
  | none => s

/-- mpqp.c:883-927 __mpqp_shrink: the last entry, if there are two or more -/
def shrink (s : St) : St :=
  if s.pool.length > 1 then
    match s.pool.getLast? with
    | some e => ({ s with pool := s.pool.dropLast } : St).endQ e
    | none => s
  else s

/-- mpqp.c:929-987 __mpqp_shrink_all -/
def shrinkAll (s : St) : St :=
  s.pool.foldl St.endQ { s with pool := [] }

/-- mpqp.c:118-122: the idle counter after a check -/
def idleNext (x : Q) : Nat := if x.exec = x.last ∧ x.load = 0 then x.idle + 1 else 0

/-- mpqp.c:102-134 __mpqp_q_check_shrink, on queue `q`; `m` is `q_max_idles` -/
def check (m : Nat) (s : St) (q : Nat) (x : Q) : St :=
  let s := s.setQ q { x with idle := idleNext x, last := x.exec }
  if idleNext x ≥ 2 * m then shrinkAll s
  else if idleNext x ≥ m then shrink s
  else s

/-- One event without the log; `none`: it cannot happen now. Belongs to the model of kernel/mpqp.c:97-170, mpq.c:441, 655-706, 770-798, mpqp.c:149-163. -/
def act (m size : Nat) (s : St) : Ev → Option St
  | .add => if s.pool.length < size then some { s with qs := s.qs ++ [Q.new], pool := s.pool ++ [s.qs.length] } else none
  | .queue q => match s.live q with
    | some x => if x.term then none else some (s.setQ q { x with load := x.load + 1 })
    | none => none
  | .ran q => match s.live q with
    | some x => if x.load = 0 then none else some (s.setQ q { x with load := x.load - 1, exec := x.exec + 1 })
    | none => none
  | .event q => match s.live q with
    | some _ => some s
    | none => none
  | .tick q => match s.live q with
    | some x => some (check m s q x)
    | none => none
  | .exit q => match s.live q with
    | some x => if x.term then some (s.setQ q { x with gone := true }) else none
    | none => none

/-- What one event does, in the model of kernel/mpqp.c:97-170, mpq.c:441, 655-706, 770-798, mpqp.c:149-163. -/
def step (m size : Nat) (s : St) (e : Ev) : Option St :=
  (act m size s e).map fun s' => { s' with log := s.log ++ [e] }

/-- One event after the other, in the model of kernel/mpqp.c:97-170, mpq.c:441, 655-706, 770-798, mpqp.c:149-163; no code of its own. -/
def run (m size : Nat) (s : St) : List Ev → Option St
  | [] => some s
  | e :: es => (step m size s e).bind fun s' => run m size s' es

end Verif.PoolIdle
