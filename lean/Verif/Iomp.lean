/-!
# The poll and select back-ends: which events a wait reports

Models kernel/poll_mp.c:44-146 (`os_add_event_fd_poll`, `os_mp_wait_poll`) on top of `aosl_hal_poll` (platform/src/linux/aosl_hal_iomp.c:95-137) and
kernel/select_mp.c:44-142 (`os_add_event_fd_select`, `os_mp_wait_select`) on top of `aosl_hal_select`, with the mapping of
`aosl_hal_epoll_wait` (aosl_hal_iomp.c:62-93) for `os_mp_wait_epoll`.

What the OS finds ready is an arbitrary function.  `n_fds [i].events` of `aosl_hal_poll` is not initialised before bits are or-ed into it: what the stack held there is the argument `junk`.
A wait that is interrupted is repeated (WaitTime); waiting time is not modelled here.
-/

namespace Verif.Iomp

/-- A registered fd: its number and the bits AOSL_POLLIN and AOSL_POLLOUT of `f->flags` (interest). Belongs to the model of kernel/poll_mp.c:44-146, platform/src/linux/aosl_hal_iomp.c:95-137, kernel/select_mp.c:44-142. -/
structure Fd where
  fd : Nat
  inA : Bool
  outA : Bool
deriving DecidableEq, Repr

/-- What the OS says about an fd: readable, writable, something else (POLLERR, POLLHUP, POLLNVAL). Belongs to the model of kernel/poll_mp.c:44-146, platform/src/linux/aosl_hal_iomp.c:95-137, kernel/select_mp.c:44-142. -/
structure Rdy where
  rd : Bool
  wr : Bool
  other : Bool
deriving DecidableEq, Repr

/-- An entry of `events`. Belongs to the model of kernel/poll_mp.c:44-146, platform/src/linux/aosl_hal_iomp.c:95-137, kernel/select_mp.c:44-142. -/
structure Ev where
  fd : Nat
  rd : Bool
  wr : Bool
deriving DecidableEq, Repr

/-- `os_add_event_fd_poll`, `os_add_event_fd_select` (poll_mp.c:44-52): `read_f` and `write_f` are set. -/
def added (fd : Nat) (readF writeF : Bool) : Fd := ⟨fd, readF, writeF⟩

/-- What `poll` and the conversion after it give for one fd: the AOSL bits, and whether the OS counted the fd (aosl_hal_iomp.c:103-133). -/
def halPoll (rdy : Nat → Rdy) (junk : Fd → Bool × Bool) (f : Fd) : Bool × Bool × Bool :=
  let i := (f.inA || (junk f).1) && (rdy f.fd).rd
  let o := (f.outA || (junk f).2) && (rdy f.fd).wr
  (i, o, i || o || (rdy f.fd).other)

/-- The loop over the fds (poll_mp.c:124-141, select_mp.c:122-136): `res` is what was found for each fd.  `i` is the number of events so far, `err` what the OS returned. -/
def collect (err max : Nat) (res : Fd → Bool × Bool) : Nat → List Fd → List Ev × List Fd
  | _, [] => ([], [])
  | i, f :: fs =>
    let (r, w) := res f
    let f' : Fd := { f with inA := f.inA && !r, outA := f.outA && !w }
    let hit := r || w
    let i' := if hit then i + 1 else i
    let ev := if hit then [⟨f.fd, r, w⟩] else []
    if i' ≥ err ∨ i' ≥ max then (ev, f' :: fs)
    else (ev ++ (collect err max res i' fs).1, f' :: (collect err max res i' fs).2)

/-- `os_mp_wait_poll` (poll_mp.c:63-146) with at most 1024 fds: the events and the fds with their new interest.  `sig` is the read end of the queue's own pipe. -/
def waitPoll (max : Nat) (sig : Nat) (rdy : Nat → Rdy) (junk : Fd → Bool × Bool) (fds : List Fd) : List Ev × List Fd :=
  let err := (if (rdy sig).rd || (rdy sig).other then 1 else 0) + (fds.filter fun f => (halPoll rdy junk f).2.2).length
  if err = 0 then ([], fds)
  else
    let s := if (rdy sig).rd then [⟨sig, true, false⟩] else []
    let r := collect err max (fun f => ((halPoll rdy junk f).1, (halPoll rdy junk f).2.1)) s.length fds
    (s ++ r.1, r.2)

/-- What `select` leaves in the two sets for one fd. Belongs to the model of kernel/poll_mp.c:44-146, platform/src/linux/aosl_hal_iomp.c:95-137, kernel/select_mp.c:44-142. -/
def halSelect (rdy : Nat → Rdy) (f : Fd) : Bool × Bool := (f.inA && (rdy f.fd).rd, f.outA && (rdy f.fd).wr)

/-- 1 for a set bit. Belongs to the model of kernel/poll_mp.c:44-146, platform/src/linux/aosl_hal_iomp.c:95-137, kernel/select_mp.c:44-142. -/
def bit (b : Bool) : Nat := if b then 1 else 0

/-- `os_mp_wait_select` (select_mp.c:68-142): the OS returns the number of bits in both sets. -/
def waitSelect (max : Nat) (sig : Nat) (rdy : Nat → Rdy) (fds : List Fd) : List Ev × List Fd :=
  let err := bit (rdy sig).rd + (fds.map fun f => bit (halSelect rdy f).1 + bit (halSelect rdy f).2).sum
  if err = 0 then ([], fds)
  else
    let s := if (rdy sig).rd then [⟨sig, true, false⟩] else []
    let r := collect err max (halSelect rdy) s.length fds
    (s ++ r.1, r.2)

/-- The number of fds that `os_mp_wait_poll` can take (poll_mp.c:61, 74-75); above it returns an error, and `__mpq_loop` aborts (mpq.c:790-791). -/
def pollMax : Nat := 1024

/-- The number of bits of an `fd_set` (FD_SETSIZE of Linux): `aosl_hal_fdset_set` sets bit `fd` of it without a check (aosl_hal_iomp.c:157-160). -/
def setSize : Nat := 1024

/-- How a queue waits. Belongs to the model of kernel/poll_mp.c:44-146, platform/src/linux/aosl_hal_iomp.c:95-137, kernel/select_mp.c:44-142. -/
inductive How | epoll | poll | select
deriving DecidableEq, Repr

/-- What a wait of the queue's loop leads to before the OS is asked. -/
inductive Start
  /-- the OS is asked -/
  | waits
  /-- `os_mp_wait_poll` returns -AOSL_ENFILE (poll_mp.c:67-68), `os_poll_dispatch` returns it and `__mpq_loop` calls `abort` (mpq.c:787-789) -/
  | abort
  /-- a bit outside the fd set is set -/
  | outOfBounds
deriving DecidableEq, Repr

/-- The start of `os_mp_wait_poll` (poll_mp.c:67-105), `os_mp_wait_select` (select_mp.c:83-99) and `os_mp_wait_epoll` (et_mp.c:98-117; the fds are in the epoll set) with these fds registered.
`sig` is the queue's own fd.  An fd without interest in a direction is not put into that set. -/
def start (h : How) (sig : Nat) (fds : List Fd) : Start :=
  match h with
  | .epoll => .waits
  | .poll => if fds.length > pollMax then .abort else .waits
  | .select => if sig ≥ setSize ∨ fds.any (fun f => (f.inA || f.outA) && decide (f.fd ≥ setSize)) then .outOfBounds else .waits

/-! ## Specification -/

/-- The event of an fd: the directions that are ready and asked for; none if there is no such direction. Belongs to the model of kernel/poll_mp.c:44-146, platform/src/linux/aosl_hal_iomp.c:95-137, kernel/select_mp.c:44-142. -/
def due (rdy : Nat → Rdy) (f : Fd) : Option Ev :=
  if (f.inA ∧ (rdy f.fd).rd) ∨ (f.outA ∧ (rdy f.fd).wr) then some ⟨f.fd, f.inA && (rdy f.fd).rd, f.outA && (rdy f.fd).wr⟩ else none

/-- All events due, the queue's pipe first. Belongs to the model of kernel/poll_mp.c:44-146, platform/src/linux/aosl_hal_iomp.c:95-137, kernel/select_mp.c:44-142. -/
def allDue (sig : Nat) (rdy : Nat → Rdy) (fds : List Fd) : List Ev :=
  (if (rdy sig).rd then [⟨sig, true, false⟩] else []) ++ fds.filterMap (due rdy)

/-- The interest after an event has been reported. Belongs to the model of kernel/poll_mp.c:44-146, platform/src/linux/aosl_hal_iomp.c:95-137, kernel/select_mp.c:44-142. -/
def spent (rdy : Nat → Rdy) (f : Fd) : Fd := { f with inA := f.inA && !(rdy f.fd).rd, outA := f.outA && !(rdy f.fd).wr }

/-- The fds after the events of the first `n` due ones have been reported. Belongs to the model of kernel/poll_mp.c:44-146, platform/src/linux/aosl_hal_iomp.c:95-137, kernel/select_mp.c:44-142. -/
def after (rdy : Nat → Rdy) : Nat → List Fd → List Fd
  | _, [] => []
  | 0, fs => fs
  | n + 1, f :: fs => if (due rdy f).isSome then spent rdy f :: after rdy n fs else f :: after rdy (n + 1) fs

end Verif.Iomp
