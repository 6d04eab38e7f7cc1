/-!
# Queued output and the writability event that flushes it

Models, for one registered fd, which of its output is queued and whether a writability event for it is still going to come: `____write` (kernel/iofd.c:716-760),
`__iofd_write_data` (iofd.c:208-245), the arming of AOSL_POLLOUT in `os_add_event_fd_poll` and `os_mp_wait_poll` (kernel/poll_mp.c:44-52, 108-141; the same in select_mp.c)
and the edge-triggered registration `os_add_event_fd_epoll` (kernel/et_mp.c:61-80).  What the bytes are is in IoWrite; here only their number matters.

The OS side is a stream socket: a send buffer with some free space, which the peer empties at any time; a write takes what fits and fails with EAGAIN if nothing fits or the connection is
not established; an edge-triggered event is produced on registration and on connection if the socket is writable, and when space appears after a write that did not take everything.
The event reported by a wait and its dispatch are one step: writes from other callbacks of the same round are steps before or after it.  The sockets of this model have no errors.
-/

namespace Verif.Arm

/-- How the queue waits. Belongs to the model of kernel/iofd.c:716-760, iofd.c:208-245, kernel/poll_mp.c:44-52, 108-141. -/
inductive Mode | level | edge
deriving DecidableEq, Repr

/-- The `write_f` given at registration: none (NULL), the default one, or one that offers at most `lim + 1` bytes at a time to the OS. Belongs to the model of kernel/iofd.c:716-760, iofd.c:208-245, kernel/poll_mp.c:44-52, 108-141. -/
inductive WriteF | null | dflt | chunks (lim : Nat)
deriving DecidableEq, Repr

/-- Data of the model of kernel/iofd.c:716-760, iofd.c:208-245, kernel/poll_mp.c:44-52, 108-141. -/
structure St where
  mode : Mode
  wf : WriteF
  /-- bytes left of each node of `w_q` -/
  q : List Nat
  /-- IOFD_NOT_READY -/
  notReady : Bool
  /-- AOSL_POLLOUT in `f->flags` (level mode) -/
  armed : Bool
  /-- the OS: connected, free space, an event on its way, a writer was turned away -/
  conn : Bool
  free : Nat
  edge : Bool
  want : Bool
deriving DecidableEq, Repr

/-- `__mpq_add_fd_argv` and `os_add_event_fd` (iofd.c:294-405, poll_mp.c:44-52, et_mp.c:61-80): with a connected socket, or one still connecting. -/
def init (mode : Mode) (wf : WriteF) (conn : Bool) (free : Nat) : St :=
  { mode := mode, wf := wf, q := [], notReady := !conn, armed := wf ≠ .null, conn := conn, free := free,
    edge := decide (wf ≠ .null) && conn && decide (0 < free), want := decide (conn = true ∧ free = 0) }

/-- A low-level write of `m` bytes: the number taken, `none` for EAGAIN. Belongs to the model of kernel/iofd.c:716-760, iofd.c:208-245, kernel/poll_mp.c:44-52, 108-141. -/
def osWrite (s : St) (m : Nat) : Option Nat × St :=
  if s.conn = false ∨ s.free = 0 then (none, { s with want := s.conn })
  else (some (min m s.free), { s with free := s.free - min m s.free, want := s.want || decide (s.free < m) })

/-- What the call of `write_f` with `n` bytes offers to the OS. Belongs to the model of kernel/iofd.c:716-760, iofd.c:208-245, kernel/poll_mp.c:44-52, 108-141. -/
def offered (wf : WriteF) (n : Nat) : Nat :=
  match wf with
  | .chunks lim => min n (lim + 1)
  | _ => n

/-- `____write` (iofd.c:716-760); the bound of the queue and the failure of malloc are in IoWrite. -/
def write (s : St) (n : Nat) : St :=
  if s.q ≠ [] ∨ s.notReady = true then { s with q := s.q ++ [n] }
  else
    let r := osWrite s n
    let s1 := { r.2 with armed := true }
    match r.1 with
    | none => s1
    | some k => if k = 0 then s1 else if k < n then { s1 with q := [n - k] } else s1

/-- The loop of `__iofd_write_data` (iofd.c:220-238); `none`: `write_f` is NULL and is called. -/
def drain (s : St) : List Nat → Option St
  | [] => some { s with q := [] }
  | n :: ns =>
    if s.wf = .null then none
    else
      let r := osWrite s (offered s.wf n)
      let s1 := { r.2 with armed := true }
      match r.1 with
      | none => some { s1 with q := n :: ns }
      | some k => if k < n then some { s1 with q := (n - k) :: ns } else drain s1 ns

/-- `__iofd_write_data`. Belongs to the model of kernel/iofd.c:716-760, iofd.c:208-245, kernel/poll_mp.c:44-52, 108-141. -/
def handle (s : St) : Option St := drain { s with notReady := false } s.q

/-- The calls and events of the model of kernel/iofd.c:716-760, iofd.c:208-245, kernel/poll_mp.c:44-52, 108-141. -/
inductive Act
  | write (n : Nat)
  /-- a wait reports that the fd is writable, and it is dispatched -/
  | event
  /-- the peer has taken `k` bytes -/
  | taken (k : Nat)
  /-- the connection is established -/
  | connected
deriving DecidableEq, Repr

/-- The outcomes, in the model of kernel/iofd.c:716-760, iofd.c:208-245, kernel/poll_mp.c:44-52, 108-141. -/
inductive Res
  | ok (s : St)
  /-- not possible now -/
  | no
  /-- a call through a NULL pointer -/
  | crash
deriving DecidableEq, Repr

/-- Does a wait report the fd as writable?. Belongs to the model of kernel/iofd.c:716-760, iofd.c:208-245, kernel/poll_mp.c:44-52, 108-141. -/
def reports (s : St) : Bool :=
  match s.mode with
  | .level => s.armed && s.conn && decide (0 < s.free)
  | .edge => s.edge

/-- What one event does, in the model of kernel/iofd.c:716-760, iofd.c:208-245, kernel/poll_mp.c:44-52, 108-141. -/
def step (s : St) : Act → Res
  | .write n => .ok (write s n)
  | .event =>
    if reports s then
      match handle (match s.mode with | .level => { s with armed := false } | .edge => { s with edge := false }) with
      | some s' => .ok s'
      | none => .crash
    else .no
  | .taken k => if k = 0 then .no else .ok { s with free := s.free + k, edge := s.edge || (s.want && decide (s.wf ≠ .null)), want := false }
  | .connected => if s.conn then .no else .ok { s with conn := true, edge := s.edge || (decide (s.wf ≠ .null) && decide (0 < s.free)), want := decide (s.free = 0) }

/-- One event after the other, in the model of kernel/iofd.c:716-760, iofd.c:208-245, kernel/poll_mp.c:44-52, 108-141; no code of its own. -/
def run (s : St) : List Act → Res
  | [] => .ok s
  | a :: as => match step s a with
    | .ok s' => run s' as
    | .no => .no
    | .crash => .crash

/-! ## Specification -/

/-- There is output the caller was told is accepted, and it could be sent now. Belongs to the model of kernel/iofd.c:716-760, iofd.c:208-245, kernel/poll_mp.c:44-52, 108-141. -/
def Sendable (s : St) : Prop := s.q ≠ [] ∧ s.conn = true ∧ 0 < s.free

/-- Bytes accepted and not yet given to the OS, counting one extra for each write (there are writes of 0 bytes). Belongs to the model of kernel/iofd.c:716-760, iofd.c:208-245, kernel/poll_mp.c:44-52, 108-141. -/
def backlog (s : St) : Nat := (s.q.map (· + 1)).sum

end Verif.Arm
