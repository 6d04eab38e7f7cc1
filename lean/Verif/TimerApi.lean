import Verif.Timer
/-
  Model of the calls that make and change timers: kernel/timer.c:545-584 (aosl_mpq_create_timer), 586-656 (…_on_q), 658-705 (one-shot), 707-833
  (aosl_mpq_set_timer), 835-889 (one-shot), 920-998 (rescheduling); include/api/aosl_mpq_timer.h.
  What timers do once they are there is Verif.Timer's subject.
-/
namespace Verif.TimerApi
open Verif.Timer

/-- The cases distinguished in the model of kernel/timer.c:545-584. -/
inductive Fn where
  | create | createOneshot | set | setOneshot
deriving DecidableEq, Repr

/-- The outcomes, in the model of kernel/timer.c:545-584. -/
inductive Err where
  | einval | e2big | enomem | eoverflow
deriving DecidableEq, Repr

/-- The arguments; `interval` and `expire` only where the call has them. Belongs to the model of kernel/timer.c:545-584. -/
structure Args where
  interval : BitVec 64
  expire : Nat
  noFunc : Bool
  argc : Nat
deriving DecidableEq, Repr

/-- What is made: `timer->interval`, and the expiry time if the timer is scheduled: relative to the clock, or fixed. Belongs to the model of kernel/timer.c:545-584. -/
inductive Sched where
  | inactive
  | afterMs (i : Nat)
  | atTime (e : Nat)
deriving DecidableEq, Repr

/-- Data of the model of kernel/timer.c:545-584. -/
structure Made where
  interval : Nat
  sched : Sched
deriving DecidableEq, Repr

/-- `__sched_timer` (timer.c:371-389) on a new timer; `expire` 0: not given -/
def schedule (interval expire : Nat) : Made :=
  if expire ≠ 0 then ⟨invalidInterval, .atTime expire⟩
  else if interval ≠ invalidInterval then ⟨interval, .afterMs interval⟩
  else ⟨interval, .atTime (two64 - 1)⟩

/-- MPQ_ARGC_MAX (include/kernel/mp_queue.h:250) -/
abbrev argcMax : Nat := 64

/-- On the current queue. `q`: there is one or it could be made; `mk`: failure of `__create_timer_on_q` (timer.c:411-424).  The tests in their order:
    timer.c:553-572 create, 667-681 createOneshot, 728-747 set, 843-862 setOneshot. -/
def current (f : Fn) (a : Args) (q : Bool) (mk : Option Err) : Except Err Made :=
  let fin (m : Made) : Except Err Made := if !q then .error .einval else match mk with | some e => .error e | none => .ok m
  match f with
  | .create =>
    if a.interval.toInt < 0 then .error .einval
    else if a.noFunc then .error .einval
    else if a.argc > argcMax then .error .e2big
    else fin ⟨a.interval.toNat, .inactive⟩
  | .createOneshot =>
    if a.noFunc then .error .einval
    else if a.argc > argcMax then .error .e2big
    else fin ⟨invalidInterval, .inactive⟩
  | .set =>
    if a.interval.toInt < 0 then .error .einval
    else if a.noFunc then .error .einval
    else if a.argc > argcMax then .error .e2big
    else fin (schedule a.interval.toNat 0)
  | .setOneshot =>
    if a.noFunc then .error .einval
    else if a.argc > argcMax then .error .e2big
    else if a.expire = 0 then .error .einval
    else fin (schedule invalidInterval a.expire)

/-- timer.c:600-640 mpq_create_timer_on_q_args: `4 + argc` words are passed on, the limit of the call is 64 (mpq.c, Verif.Mpq.argsErr) -/
def createOnQArgs (interval : Nat) (a : Args) (q : Bool) (mk : Option Err) : Except Err Made :=
  if a.noFunc then .error .einval
  else if a.argc > argcMax then .error .e2big
  else if !q then .error .einval
  else if 4 + a.argc > argcMax then .error .e2big
  else match mk with
    | some e => .error e
    | none => .ok ⟨interval, .inactive⟩

/-- timer.c:776-816 mpq_set_timer_on_q_args; `expire`: 0 if no time is given (`expire_time_p ? *expire_time_p : 0`) -/
def setOnQArgs (interval expire : Nat) (a : Args) (q : Bool) (mk : Option Err) : Except Err Made :=
  if a.noFunc then .error .einval
  else if a.argc > argcMax then .error .e2big
  else if !q then .error .einval
  else if 5 + a.argc > argcMax then .error .e2big
  else match mk with
    | some e => .error e
    | none => .ok (schedule interval expire)

/-- On a given queue; `q`: its handle resolves.  timer.c:642-656, 696-705, 819-833, 879-889. -/
def onQ (f : Fn) (a : Args) (q : Bool) (mk : Option Err) : Except Err Made :=
  match f with
  | .create => if a.interval.toInt < 0 then .error .einval else createOnQArgs a.interval.toNat a q mk
  | .createOneshot => createOnQArgs invalidInterval a q mk
  | .set => if a.interval.toInt < 0 then .error .einval else setOnQArgs a.interval.toNat 0 a q mk
  | .setOneshot => setOnQArgs invalidInterval a.expire a q mk

/-! ## rescheduling -/

/-- A thread in aosl_mpq_resched_timer (timer.c:953-977) or aosl_mpq_resched_oneshot_timer (980-998), between what it does itself and what its function
    does on the timer's queue. -/
inductive Pc where
  | out
  /-- the function with this interval is on its way to the queue -/
  | periodic (i : Nat)
  | oneshot (e : Nat)
deriving DecidableEq, Repr

/-- the timer's `interval` and the threads. Belongs to the model of kernel/timer.c:545-584. -/
structure St where
  interval : Nat
  pc : Nat → Pc

/-- A table changed at one place, as an assignment to one element or one object does; used in the model of kernel/timer.c:545-584. -/
def upd (f : Nat → β) (i : Nat) (v : β) : Nat → β := fun j => if j = i then v else f j

inductive Act where
  /-- aosl_mpq_resched_timer; `none`: a negative interval, "keep the interval" -/
  | resched (t : Nat) (i : Option Nat)
  /-- aosl_mpq_resched_oneshot_timer -/
  | reschedOneshot (t e : Nat)
  /-- `__resched_timer` on the queue (timer.c:391-400) -/
  | exec (t : Nat)
deriving DecidableEq, Repr

/-- The outcomes, in the model of kernel/timer.c:545-584. -/
inductive Ans where
  | ok | einval
deriving DecidableEq, Repr

def step (s : St) : Act → Option (St × Ans)
  | .resched t i =>
    if s.pc t = .out then
      match i with
      | some i => if i < two63 then some ({ s with pc := upd s.pc t (.periodic i) }, .ok) else none
      -- 964-971: the interval is read here, on the caller's thread
      | none => if s.interval ≥ two63 then some (s, .einval) else some ({ s with pc := upd s.pc t (.periodic s.interval) }, .ok)
    else none
  | .reschedOneshot t e =>
    if s.pc t = .out then
      if e = 0 then some (s, .einval) else some ({ s with pc := upd s.pc t (.oneshot e) }, .ok)
    else none
  | .exec t =>
    match s.pc t with
    | .periodic i => some ({ s with pc := upd s.pc t .out, interval := i }, .ok)
    | .oneshot _ => some ({ s with pc := upd s.pc t .out, interval := invalidInterval }, .ok)
    | .out => none

/-- One event after the other, in the model of kernel/timer.c:545-584; no code of its own. -/
def run (s : St) : List Act → Option St
  | [] => some s
  | a :: l => (step s a).bind fun r => run r.1 l

/-! ## the handle of a timer made on another queue -/

/-- the thread that makes it: in the synchronous call, after it, returned with the handle. Belongs to the model of kernel/timer.c:545-584. -/
inductive Maker where
  | calling | called | returned
deriving DecidableEq, Repr

/-- `active`: in the timer base; `mem`: the timer's memory exists; `ended`: its queue has ended. Belongs to the model of kernel/timer.c:545-584. -/
structure Tm where
  maker : Maker
  mem : Bool
  active : Bool
  ended : Bool
  /-- the maker read `timer->obj_id` of a freed timer -/
  uaf : Bool
deriving DecidableEq, Repr

/-- The state at the beginning, in the model of kernel/timer.c:545-584. -/
def Tm.init : Tm := ⟨.calling, false, false, false, false⟩

inductive Ev where
  /-- the function on the queue makes the timer, scheduled or not, with one reference, the queue's (timer.c:402-449) -/
  | make (sched : Bool)
  /-- its callback runs and kills it: the only way to know its handle before the maker has returned (timer.c:530, 451-464) -/
  | fireKill
  /-- the queue ends (timer.c:474-486) -/
  | endQ
  /-- timer.c:639, 815: `return timer->obj_id` -/
  | read
deriving DecidableEq, Repr

/-- What one event does, in the model of kernel/timer.c:545-584. -/
def Tm.step (s : Tm) : Ev → Option Tm
  | .make sched => if s.maker = .calling ∧ s.ended = false then some { s with maker := .called, mem := true, active := sched } else none
  | .fireKill => if s.mem ∧ s.active ∧ s.ended = false then some { s with mem := false, active := false } else none
  | .endQ => if s.maker ≠ .calling ∧ s.ended = false then some { s with mem := false, active := false, ended := true } else none
  | .read => if s.maker = .called then some { s with maker := .returned, uaf := s.uaf || !s.mem } else none

/-- One event after the other, in the model of kernel/timer.c:545-584; no code of its own. -/
def Tm.run (s : Tm) : List Ev → Option Tm
  | [] => some s
  | e :: l => (s.step e).bind fun s' => s'.run l

end Verif.TimerApi
