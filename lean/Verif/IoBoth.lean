import Verif.IoReadProps

/-!
# The dispatch of one event of one fd: writing, reading, errors together

Models the body of `os_mp_dispatch_epoll` (kernel/et_mp.c:115-166) and of `os_mp_dispatch_poll` (kernel/poll_mp.c:155-197; select_mp.c:144-186 is the same) for an fd that `iofd_get` finds in
the table, on top of the model of reading of `Verif.IoRead` (kernel/iofd.c:73-198, 581-596).  The write part `__iofd_write_data` (iofd.c:208-245) is reduced to what it does for callbacks:
the queue was emptied and `event_f` is told "ready for writing", the fd is still blocked, or a write failed.  Also `__default_accept` (net/sk_utils.c:112-128) and `__do_connect` (sk_utils.c:210-232).

`read_f` is `Verif.IoRead.lowRead`; calls of it are logged in `reqs`.
-/

namespace Verif.IoBoth

open Verif.IoRead

/-- `AOSL_IOFD_HUP`, `AOSL_IOFD_ERROR` (include/api/aosl_mpq_fd.h:80-81). -/
def IOFD_HUP : Int := 2
/-- A constant of the model of kernel/et_mp.c:115-166, kernel/poll_mp.c:155-197, select_mp.c:144-186. -/
def IOFD_ERROR : Int := -20000

/-- What the wait reported for the fd: `AOSL_POLLERR`, `AOSL_POLLOUT`, `AOSL_POLLIN`, `AOSL_POLLHUP`. Belongs to the model of kernel/et_mp.c:115-166, kernel/poll_mp.c:155-197, select_mp.c:144-186. -/
structure Rev where
  err : Bool
  out : Bool
  inn : Bool
  hup : Bool
deriving DecidableEq, Repr

/-- The cases distinguished in the model of kernel/et_mp.c:115-166, kernel/poll_mp.c:155-197, select_mp.c:144-186. -/
inductive Mode | epoll | poll
deriving DecidableEq, Repr

/-- What the callback told "ready for writing" does with its fd: nothing, `aosl_close`, `aosl_mpq_del_fd`. Belongs to the model of kernel/et_mp.c:115-166, kernel/poll_mp.c:155-197, select_mp.c:144-186. -/
inductive Act | keep | close | del
deriving DecidableEq, Repr

/-- How the write part ends (iofd.c:220-244). -/
inductive WOut
  /-- nothing (more) is queued: `event_f (READY_FOR_WRITING)` -/
  | drained (a : Act)
  | blocked
  | failed (e : Nat)
deriving DecidableEq, Repr

/-- What the user's callbacks see, in order. Belongs to the model of kernel/et_mp.c:115-166, kernel/poll_mp.c:155-197, select_mp.c:144-186. -/
inductive Seen
  | ready
  | cb (c : Cb)
deriving DecidableEq, Repr

/-- One fd: the read side, and everything the callbacks have seen. Belongs to the model of kernel/et_mp.c:115-166, kernel/poll_mp.c:155-197, select_mp.c:144-186. -/
structure BFd where
  r : RFd
  seen : List Seen
deriving DecidableEq, Repr

/-- The callbacks that a step of the read side has made, appended to what was seen. Belongs to the model of kernel/et_mp.c:115-166, kernel/poll_mp.c:155-197, select_mp.c:144-186. -/
def BFd.take (f : BFd) (r' : RFd) : BFd := ⟨r', f.seen ++ (r'.log.drop f.r.log.length).map .cb⟩

/-- `__iofd_write_data` (iofd.c:208-245): `true` if it returns a negative value. -/
def writePart (c : Cfg) (f : BFd) : WOut → BFd × Bool
  | .drained .keep => (⟨f.r, f.seen ++ [.ready]⟩, false)
  | .drained .close => (⟨if f.r.reg = true then { f.r with isOpen := false, reg := false } else f.r, f.seen ++ [.ready]⟩, false)
  | .drained .del => (⟨{ f.r with reg := false }, f.seen ++ [.ready]⟩, false)
  | .blocked => (f, false)
  | .failed e => (f.take (eventAndClose c f.r (-(e : Int))), true)

/-- `__iofd_read_data` (iofd.c:73-198): `true` if it returns a negative value. -/
def readPart (c : Cfg) (f : BFd) (rs : List RRes) : BFd × Bool :=
  let x := readData c f.r rs
  (f.take x.1, match x.2 with
    | .blocked => false
    | .ret e => decide (e < 0))

/-- One event of a history. Belongs to the model of kernel/et_mp.c:115-166, kernel/poll_mp.c:155-197, select_mp.c:144-186. -/
structure Step where
  ev : Rev
  w : WOut
  rs : List RRes
deriving DecidableEq, Repr

/-- The dispatch of one event. Belongs to the model of kernel/et_mp.c:115-166, kernel/poll_mp.c:155-197, select_mp.c:144-186. -/
def dispatch (m : Mode) (c : Cfg) (f : BFd) (ev : Rev) (w : WOut) (rs : List RRes) : BFd :=
  if ¬ f.r.reg = true then f
  else if m = .epoll ∧ ev.err = true then f.take (eventAndClose c f.r IOFD_ERROR)
  else
    let a := if ev.out then writePart c f w else (f, false)
    if a.2 then a.1
    else
      let b := if ev.inn then readPart c a.1 rs else (a.1, false)
      if b.2 then b.1
      else if m = .epoll ∧ ev.hup = true then b.1.take (eventAndClose c b.1.r IOFD_HUP)
      else b.1

/-- A history of events of one fd; the closes from outside the dispatch are `none`. Belongs to the model of kernel/et_mp.c:115-166, kernel/poll_mp.c:155-197, select_mp.c:144-186. -/
def run (m : Mode) (c : Cfg) : BFd → List (Option Step) → BFd
  | f, [] => f
  | f, some s :: ss => run m c (dispatch m c f s.ev s.w s.rs) ss
  | f, none :: ss => run m c ⟨if f.r.reg then { f.r with isOpen := false, reg := false } else f.r, f.seen⟩ ss

/-! ## Listening sockets -/

/-- `__default_accept` (net/sk_utils.c:112-128) with `aosl_hal_sk_accept` (platform/src/linux/aosl_hal_socket.c:198-214): the accepted connection, or a failure.
`wouldBlock` is what the OS says when there is no connection waiting; the HAL returns `AOSL_INVALID_FD` for every failure and
`__default_accept` then returns `aosl_hal_set_error (AOSL_HAL_RET_EHAL)`, i.e. `-AOSL_EHAL`. -/
inductive Acc
  | conn (data : List Byte)
  | wouldBlock
  | error
deriving DecidableEq, Repr

/-- Belongs to the model of kernel/et_mp.c:115-166, kernel/poll_mp.c:155-197, select_mp.c:144-186. -/
def acceptRes : Acc → RRes
  | .conn d => .dgram d
  | .wouldBlock => .fail 2000
  | .error => .fail 2000

/-- `__this_q_listen_argv` (sk_utils.c:353-364): no packet check, packets of the size of `aosl_accept_data_t` (4 + 28 bytes). -/
def listenCfg (closes dels : List Cb → Bool) : Cfg := ⟨none, 32, closes, dels⟩

/-! ## Connecting -/

/-- Results of `aosl_hal_sk_connect` (aosl_hal_socket.c:216-233). -/
inductive Conn
  | done
  | inProgress
  | failed
deriving DecidableEq, Repr

/-- `__this_q_connect_argv` with `__do_connect` (net/sk_utils.c:210-250): the fd is registered, the connect is tried; on failure it is unregistered (not closed) and the error returned.
The result, and the fd as it is afterwards. -/
def connect (c : Cfg) (mem : List Byte) (k : Conn) (w : WOut) : BFd × Int :=
  let f : BFd := ⟨init mem, []⟩
  match k with
  | .done => ((writePart c f w).1, 0)
  | .inProgress => (f, 0)
  | .failed => (⟨{ f.r with reg := false }, []⟩, -2000)

end Verif.IoBoth
