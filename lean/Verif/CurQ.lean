/-
  Model of a thread's own queue (kernel/mpq.c:1129-1156 aosl_mpq_current, 1606-1628 aosl_mpq_loop, aosl_mpq_this_destroyed, 766-797 the loop, 799-851
  its end) and of the counters of a queue (mpq.c:766-797, 1586-1604; osmp.c:100-114).
-/
namespace Verif.CurQ

/-- A queue: `freed`: its memory is gone; `term`: its end was asked for. Belongs to the model of kernel/mpq.c:1129-1156, mpq.c:766-797, 1586-1604, osmp.c:100-114. -/
structure Q where
  term : Bool
  freed : Bool
deriving DecidableEq, Repr

/-- A thread: `cur`: what THIS_MPQ () gives; `frames`: the loops it is in, innermost first, each with its queue (a loop called by a function that a loop
    executes is nested); `gone`: it has ended. Belongs to the model of kernel/mpq.c:1129-1156, mpq.c:766-797, 1586-1604, osmp.c:100-114. -/
structure Th where
  cur : Option Nat
  frames : List Nat
  gone : Bool
deriving DecidableEq, Repr

/-- Data of the model of kernel/mpq.c:1129-1156, mpq.c:766-797, 1586-1604, osmp.c:100-114. -/
structure St where
  /-- queues in the order of their creation; the number is the handle (Verif.IdTable, Verif.QHandle: handles differ) -/
  qs : List Q
  th : Nat → Th
  /-- a loop used its queue after it was freed -/
  uaf : Bool

/-- The state at the beginning, in the model of kernel/mpq.c:1129-1156, mpq.c:766-797, 1586-1604, osmp.c:100-114. -/
def St.init : St := ⟨[], fun _ => ⟨none, [], false⟩, false⟩

/-- A table changed at one place, as an assignment to one element or one object does; used in the model of kernel/mpq.c:1129-1156, mpq.c:766-797, 1586-1604, osmp.c:100-114. -/
def upd (f : Nat → β) (i : Nat) (v : β) : Nat → β := fun j => if j = i then v else f j

inductive Act where
  /-- aosl_mpq_current, and the calls that make a queue for their thread (aosl_mpq_create_timer, …); `ok`: `__q_create` succeeds -/
  | current (t : Nat) (ok : Bool)
  /-- aosl_mpq_create with its thread `t`: mpq.c:952-998, here the thread with its loop -/
  | thread (t : Nat)
  /-- aosl_mpq_loop -/
  | loop (t : Nat)
  /-- one turn of the innermost loop (mpq.c:768-796): it returns when its end was asked for -/
  | turn (t : Nat)
  /-- aosl_mpq_destroy of queue `q`, by anybody -/
  | destroy (q : Nat)
  /-- the thread ends (no loop is running) -/
  | exit (t : Nat)
deriving DecidableEq, Repr

/-- `none`: not possible -/
def step (s : St) : Act → Option St
  | .current t ok =>
    if (s.th t).gone then none
    else match (s.th t).cur with
      | some _ => some s
      | none => if ok then some { s with qs := s.qs ++ [⟨false, false⟩], th := upd s.th t { s.th t with cur := some s.qs.length } } else some s
  | .thread t =>
    if (s.th t).gone ∨ (s.th t).cur ≠ none ∨ (s.th t).frames ≠ [] then none
    else some { s with qs := s.qs ++ [⟨false, false⟩], th := upd s.th t { s.th t with cur := some s.qs.length, frames := [s.qs.length] } }
  | .loop t =>
    if (s.th t).gone then none
    else match (s.th t).cur with
      -- 1609-1610: nothing without a queue
      | none => some s
      | some q => some { s with th := upd s.th t { s.th t with frames := q :: (s.th t).frames } }
  | .turn t =>
    match (s.th t).frames with
    | [] => none
    | q :: fs =>
      match s.qs[q]? with
      | none => none
      | some x =>
        if x.freed then some { s with uaf := true }
        else if x.term then
          -- 784-787, then __q_wait_destroy: THIS_MPQ () becomes NULL (829), the queue is freed (838)
          some { s with qs := s.qs.set q { x with freed := true }, th := upd s.th t { s.th t with cur := none, frames := fs } }
        else some s
  | .destroy q =>
    match s.qs[q]? with
    | none => none
    -- a freed queue's handle does not resolve
    | some x => if x.freed then some s else some { s with qs := s.qs.set q { x with term := true } }
  | .exit t => if (s.th t).frames = [] ∧ (s.th t).gone = false then some { s with th := upd s.th t { s.th t with gone := true } } else none

/-- One event after the other, in the model of kernel/mpq.c:1129-1156, mpq.c:766-797, 1586-1604, osmp.c:100-114; no code of its own. -/
def run (s : St) : List Act → Option St
  | [] => some s
  | a :: l => (step s a).bind fun s' => run s' l

/-- aosl_mpq_this_destroyed (1621-1627) on thread `t` -/
def thisDestroyed (s : St) (t : Nat) : Bool :=
  match (s.th t).cur with
  | none => true
  | some q => match s.qs[q]? with
    | some x => x.term
    | none => true

/-! ## counters -/

/-- Data of the model of kernel/mpq.c:1129-1156, mpq.c:766-797, 1586-1604, osmp.c:100-114. -/
structure Counters where
  funcs : Nat
  timers : Nat
  fds : Nat
deriving DecidableEq, Repr

/-- what a queue does between two questions: a batch of functions, a round of timers, a wait with `fds` descriptor events and possibly the wake-up event
    (`kicked`), a synchronous call of a function of its own, executed at once (mpq.c:1260-1291) -/
inductive Ev where
  | batch (n : Nat)
  | timers (n : Nat)
  | wait (fds : Nat) (kicked : Bool)
  | direct
deriving DecidableEq, Repr

/-- mpq.c:772-796 -/
def count (c : Counters) : Ev → Counters
  | .batch n => { c with funcs := c.funcs + n }
  | .timers n => { c with timers := c.timers + n }
  | .wait fds kicked => { c with fds := c.fds + fds + (if kicked then 1 else 0) }
  | .direct => c

/-- Belongs to the model of kernel/mpq.c:1129-1156, mpq.c:766-797, 1586-1604, osmp.c:100-114. -/
def counts (c : Counters) : List Ev → Counters
  | [] => c
  | e :: l => counts (count c e) l

/-- aosl_mpq_exec_counters asked by the function number `i` (from 0) of a batch, after the events `l`: the batch is added when it is finished. Belongs to the model of kernel/mpq.c:1129-1156, mpq.c:766-797, 1586-1604, osmp.c:100-114. -/
def askedInBatch (l : List Ev) (_i : Nat) : Counters := counts ⟨0, 0, 0⟩ l

end Verif.CurQ
