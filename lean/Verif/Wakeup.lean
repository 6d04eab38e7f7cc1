/-!
# The wake-up protocol between producers and a queue's poll loop

Models `mp_kick_q`, `os_mp_kick`, `os_drain_sigp` (kernel/mpq.c:285-363), `os_poll_dispatch` and the two
wait functions (kernel/osmp.c:91-186) and the poll loop `__mp_queue_poll_loop` (kernel/mpq.c:769-797), one action per access to
a shared variable, for one queue and any number of other threads.

Simplifications: memory is sequentially consistent (both sides of the handshake execute a full barrier
`aosl_mb ()`, or a lock operation, between their store and their load; kernel/mpq.c:349-355, osmp.c:126-134);
adding a function to the list and incrementing `count` is one action (it happens under `q->lock`,
kernel/mpq.c:426-440; for the wake-up only `count` is read without the lock); a write to the wake-up
pipe fails only when the pipe is full.  `aosl_msleep (5)` is not modelled.
-/

namespace Verif.Wakeup

/-- The time the poll may sleep: `mpq_max_wait_time` (kernel/mpq.c:706-720): 0, a positive time, or -1 (for ever). -/
inductive TO | zero | fin | inf
deriving DecidableEq, Repr

/-- Program points of the queue's thread. -/
inductive CPc
  /-- in `__check_and_call_funcs`, timers, or fd callbacks (kernel/mpq.c:775-782) -/
  | work
  /-- `if (q->terminated)` (kernel/mpq.c:784) -/
  | chkTerm
  /-- the condition for entering idle state (osmp.c:125) -/
  | cond
  /-- `q->need_kicking = 1` (osmp.c:126) -/
  | setNeed (t : TO)
  /-- `if (q->terminated)` (osmp.c:136) -/
  | rdTerm (t : TO)
  /-- `if (atomic_read (&q->count) > 0)` (osmp.c:153) -/
  | rdCount (t : TO)
  /-- `q->need_kicking = 0` (osmp.c:159) -/
  | clrNeed
  /-- `if (atomic_read (&q->kick_q_count) == 0 && q->iofd_count == 0)` (osmp.c:161) -/
  | rdKick
  /-- `q->need_kicking = 1` in the wait function (osmp.c:94, 107) -/
  | preWait (t : TO)
  /-- blocked in `os_mp_wait` / `k_event_timedwait` (osmp.c:96, 109) -/
  | waiting (t : TO)
  /-- `q->need_kicking = 0` after the wait (osmp.c:98, 111) -/
  | postWait
  /-- `os_mp_dispatch`, draining the pipe (osmp.c:112, mpq.c:285-310) -/
  | drain
  /-- left the loop -/
  | exited
deriving DecidableEq, Repr

/-- Program points of another thread in `____add_f` or `__mpq_destroy`, from the moment the function is
added (or `terminated` is set): kernel/mpq.c:440-443, 1643-1646, 345-363. -/
inductive PPc
  | idle
  /-- before `if (q->need_kicking)` -/
  | kick
  /-- before `atomic_inc (&q->kick_q_count)` -/
  | inc
  /-- before the write to the pipe or `k_event_pulse` -/
  | wr
deriving DecidableEq, Repr

/-- Data of the model of kernel/mpq.c:285-363, kernel/osmp.c:91-186, kernel/mpq.c:769-797. -/
structure St where
  pc : CPc
  thr : List PPc
  /-- functions in the list (`count`, outside `__check_and_call_funcs`) -/
  pend : Nat
  term : Bool
  need : Bool
  /-- `kick_q_count` -/
  kick : Int
  /-- bytes in the pipe, or 1 if the event is pulsed -/
  sig : Nat
  iofd : Nat
  /-- `AOSL_MPQ_FLAG_SIGP_EVENT` -/
  event : Bool
  /-- capacity of the pipe -/
  cap : Nat
  /-- ghost: functions executed so far -/
  executed : Nat
deriving DecidableEq, Repr

/-- kernel/mpq.c:860-895: a new queue. -/
def init (n : Nat) (event : Bool) (cap : Nat) : St :=
  { pc := .work, thr := List.replicate n .idle, pend := 0, term := false, need := false, kick := 0, sig := 0, iofd := 0,
    event := event, cap := cap, executed := 0 }

/-- The calls and events of the model of kernel/mpq.c:285-363, kernel/osmp.c:91-186, kernel/mpq.c:769-797. -/
inductive Act
  /-- thread `t` adds a function -/
  | add (t : Nat)
  /-- thread `t` sets `terminated` -/
  | destroy (t : Nat)
  | rdNeed (t : Nat)
  | incKick (t : Nat)
  | write (t : Nat)
  /-- run everything; callbacks may add `k` functions to the own queue and change the number of fds -/
  | work (k iofd : Nat)
  | chkTerm
  | cond (t : TO)
  | setNeed
  | rdTerm
  | rdCount
  | clrNeed
  | rdKick
  | preWait
  /-- the wait returns because of the signal -/
  | wakeSig
  /-- the wait returns for another reason: time, fd event, interrupted -/
  | wakeOther
  | postWait
  /-- the dispatch reads `k` bytes -/
  | drain (k : Nat)
deriving DecidableEq, Repr

/-- Belongs to the model of kernel/mpq.c:285-363, kernel/osmp.c:91-186, kernel/mpq.c:769-797. -/
def setT (s : St) (t : Nat) (p : PPc) : St := { s with thr := s.thr.set t p }

/-- What one event does, in the model of kernel/mpq.c:285-363, kernel/osmp.c:91-186, kernel/mpq.c:769-797. -/
def step (s : St) : Act → Option St
  | .add t => match s.thr[t]? with
    | some .idle => some (setT { s with pend := s.pend + 1 } t .kick)
    | _ => none
  | .destroy t => match s.thr[t]? with
    | some .idle => some (setT { s with term := true } t .kick)
    | _ => none
  | .rdNeed t => match s.thr[t]? with
    | some .kick => some (setT s t (if s.need then .inc else .idle))
    | _ => none
  | .incKick t => match s.thr[t]? with
    | some .inc => some (setT { s with kick := s.kick + 1 } t .wr)
    | _ => none
  | .write t => match s.thr[t]? with
    | some .wr =>
      if s.event then some (setT { s with sig := 1 } t .idle)
      else if s.sig < s.cap then some (setT { s with sig := s.sig + 1 } t .idle)
      else some (setT { s with kick := s.kick - 1 } t .idle)
    | _ => none
  | .work k iofd => match s.pc with
    | .work => some { s with pc := .chkTerm, pend := k, iofd := iofd, executed := s.executed + s.pend }
    | _ => none
  | .chkTerm => match s.pc with
    | .chkTerm => some { s with pc := if s.term then .exited else .cond }
    | _ => none
  | .cond t => match s.pc with
    | .cond => some { s with pc := if s.term = false ∧ (0 < s.kick ∨ 0 < s.iofd ∨ t ≠ .zero) then .setNeed t else .work }
    | _ => none
  | .setNeed => match s.pc with
    | .setNeed t => some { s with need := true, pc := .rdTerm t }
    | _ => none
  | .rdTerm => match s.pc with
    | .rdTerm t => some { s with pc := if s.term then .work else .rdCount t }
    | _ => none
  | .rdCount => match s.pc with
    | .rdCount t => some { s with pc := if 0 < s.pend then .clrNeed else .preWait t }
    | _ => none
  | .clrNeed => match s.pc with
    | .clrNeed => some { s with need := false, pc := .rdKick }
    | _ => none
  | .rdKick => match s.pc with
    | .rdKick => some { s with pc := if s.kick = 0 ∧ s.iofd = 0 then .work else .preWait .zero }
    | _ => none
  | .preWait => match s.pc with
    | .preWait t => some { s with need := true, pc := .waiting t }
    | _ => none
  | .wakeSig => match s.pc with
    | .waiting _ => if 0 < s.sig then some { s with pc := .postWait, sig := if s.event then 0 else s.sig } else none
    | _ => none
  | .wakeOther => match s.pc with
    | .waiting _ => some { s with pc := .postWait, sig := if s.event then 0 else s.sig }
    | _ => none
  | .postWait => match s.pc with
    | .postWait => some { s with need := false, pc := .drain }
    | _ => none
  | .drain k => match s.pc with
    | .drain =>
      if s.event then some { s with pc := .work }
      else if k ≤ s.sig then some { s with pc := .work, sig := s.sig - k, kick := s.kick - k } else none
    | _ => none

/-- One event after the other, in the model of kernel/mpq.c:285-363, kernel/osmp.c:91-186, kernel/mpq.c:769-797; no code of its own. -/
def run (s : St) : List Act → Option St
  | [] => some s
  | a :: as => match step s a with
    | some s' => run s' as
    | none => none

/-- States of a queue with a pipe of capacity at least 1 (or an event), shared by `n` other threads. Belongs to the model of kernel/mpq.c:285-363, kernel/osmp.c:91-186, kernel/mpq.c:769-797. -/
def Reachable (s : St) : Prop := ∃ n e c acts, 1 ≤ c ∧ run (init n e c) acts = some s

end Verif.Wakeup
