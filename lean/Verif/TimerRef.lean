/-
  Model of the reference counting of one timer, kernel/timer.c: calls of the timer API by any number of
  threads, the queue thread, and the run loop, interleaved.  The granularity of a step is a critical
  section of timer_table_lock, an atomic operation on `usage`, or a function executed on the queue.
-/
namespace Verif.TimerRef

/-- What an API call in flight will do on the owning queue: nothing (aosl_mpq_timer_interval / _active /
    _arg, kernel/timer.c:889-917, 1093-1111), `__resched_timer` (952-998), `__cancel_timer_on_q`
    (1030-1043) or `__kill_timer_on_q` (1078-1091). -/
inductive Kind where
  | query
  | resched
  | cancel
  | kill
deriving DecidableEq, Repr

/-- A call between its timer_get and its timer_put; `done` once its function has run on the queue. Belongs to the model of kernel/timer.c:197-1111, include/kernel/timer.h:55-59. -/
structure Call where
  kind : Kind
  done : Bool
deriving DecidableEq, Repr

/-- `installed`: the table entry points to the timer; `usage`: the atomic counter; `linked`: the timer is
    in the timer base of the queue; `freed`: `__free_timer` has run; `dtor`: how often the user destructor
    has run; `inCb`: the queue thread is inside the callback of this timer. Belongs to the model of kernel/timer.c:197-1111, include/kernel/timer.h:55-59. -/
structure St where
  installed : Bool
  usage : Nat
  linked : Bool
  freed : Bool
  dtor : Nat
  inCb : Bool
  calls : List Call
deriving DecidableEq, Repr

/-- The outcomes, in the model of kernel/timer.c:197-1111, include/kernel/timer.h:55-59. -/
inductive Res where
  | ok (s : St)
  /-- not possible in this state -/
  | no
  /-- an access to the timer after it was freed, or an underflow of `usage` -/
  | ub
deriving DecidableEq, Repr

/-- `__create_timer_on_q`, kernel/timer.c:408-448. -/
def St.init : St := ⟨true, 1, false, false, 0, false, []⟩

/-- `__timer_put`, include/kernel/timer.h:55-59, with `__free_timer` (kernel/timer.c:197-213). -/
def St.put (s : St) : Res :=
  if s.freed then .ub
  else match s.usage with
    | 0 => .ub
    | n + 1 =>
      if n = 0 then .ok { s with usage := 0, freed := true, dtor := s.dtor + 1 }
      else .ok { s with usage := n }

/-- `__kill_timer_on_q`, kernel/timer.c:450-463 (`__timer_id_uninstall` 171-188: -EINVAL unless
    installed). -/
def St.killOnQ (s : St) : Res :=
  if s.freed then .ub
  else if s.installed then { s with installed := false, linked := false }.put
  else .ok s

inductive Act where
  /-- timer_get (kernel/timer.c:215-240) at the start of a call -/
  | start (k : Kind)
  /-- the queue executes the function of the i-th call in flight -/
  | onq (i : Nat)
  /-- timer_put at the end of the i-th call in flight -/
  | finish (i : Nat)
  /-- one iteration of the run loop for this timer (kernel/timer.c:494-536); `again`: it is periodic -/
  | fire (again : Bool)
  /-- the callback returns -/
  | ret
  /-- mpq_fini_timers (kernel/timer.c:473-485) when the queue is destroyed -/
  | fini
deriving DecidableEq, Repr

/-- What one event does, in the model of kernel/timer.c:197-1111, include/kernel/timer.h:55-59. -/
def St.step (s : St) : Act → Res
  | .start k =>
    if s.installed then
      if s.freed then .ub else .ok { s with usage := s.usage + 1, calls := s.calls ++ [⟨k, false⟩] }
    else .ok s
  | .onq i =>
    match s.calls[i]? with
    | none => .no
    | some c =>
      if c.done then .no
      else
        let s := { s with calls := s.calls.set i { c with done := true } }
        match c.kind with
        | .query => .no
        | .resched => if s.freed then .ub else .ok { s with linked := true }
        | .cancel => if s.freed then .ub else .ok { s with linked := false }
        | .kill => s.killOnQ
  | .finish i =>
    match s.calls[i]? with
    | none => .no
    | some _ => { s with calls := s.calls.eraseIdx i }.put
  | .fire again =>
    if s.inCb then .no
    else if s.linked then
      if s.freed then .ub else .ok { s with linked := again, inCb := true }
    else .no
  | .ret => if s.inCb then .ok { s with inCb := false } else .no
  | .fini => if s.installed then s.killOnQ else .no

/-- One event after the other, in the model of kernel/timer.c:197-1111, include/kernel/timer.h:55-59; no code of its own. -/
def St.run (s : St) : List Act → Res
  | [] => .ok s
  | a :: as => match s.step a with
    | .ok s' => s'.run as
    | .no => .no
    | .ub => .ub

end Verif.TimerRef
