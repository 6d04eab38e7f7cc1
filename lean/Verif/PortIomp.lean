import Verif.IoBoth
/-
  Model of waiting for events on the ports other than linux: the time-outs of aosl_hal_select (platform/src/*/aosl_hal_iomp.c) and the emulation of epoll by kqueue on macOS and iOS (platform/src/darwin/aosl_hal_iomp.c).
  The system underneath is described by the documented behaviour of kevent: the changes are applied in order up to the first that fails (a delete of a filter that is not there fails).
-/
namespace Verif.PortIomp

open Verif.IoBoth

/-! ## Time-outs of select -/

/-- How long the system waits. Belongs to the model of spreadtrum-t117/aosl_hal_iomp.c:28-198, kernel/et_mp.c:118-167. -/
inductive Wait where
  | forever
  /-- at most so many microseconds -/
  | micros (n : Nat)
deriving DecidableEq, Repr

/-- ac791n/aosl_hal_iomp.c:47-64, asr1606/aosl_hal_iomp.c:40-59, bk725x/aosl_hal_iomp.c:42-65, esp32/aosl_hal_iomp.c:41-64, harmony/aosl_hal_iomp.c:175-198, ipro7/aosl_hal_iomp.c:40-53, rtl8713/aosl_hal_iomp.c:57-82, tw82x/aosl_hal_iomp.c:42-65, windows/aosl_hal_iomp.c:107-133, xr872/aosl_hal_iomp.c:40-63, darwin/aosl_hal_iomp.c:172-192: seconds and microseconds. -/
def tvWait (ms : Int) : Wait :=
  if ms < 0 then .forever
  else
    let sec := ms.tdiv 1000
    let usec := (ms.tmod 1000) * 1000
    .micros (sec.toNat * 1000000 + usec.toNat)

/-- spreadtrum-t117/aosl_hal_iomp.c:42-60 (and the same in the other spreadtrum ports): the number handed to sci_sock_select, in units of 100 ms. -/
def sprdUnits (ms : Int) : Int :=
  if 0 < ms then
    let to := ms.tdiv 100
    if to = 0 then 1 else to
  else 0

/-- What sci_sock_select makes of it; what 0 means is not documented in the sources: `zero` is one of the two possible meanings. Belongs to the model of spreadtrum-t117/aosl_hal_iomp.c:28-198, kernel/et_mp.c:118-167. -/
def sprdWait (zero : Wait) (ms : Int) : Wait :=
  let u := sprdUnits ms
  if u = 0 then zero else .micros (u.toNat * 100000)

/-- darwin/aosl_hal_iomp.c:96-108: the time-out of epoll_wait, seconds and nanoseconds. -/
def kqWait (ms : Int) : Wait :=
  if ms < 0 then .forever
  else
    let sec := ms.tdiv 1000
    let nsec := (ms.tmod 1000) * 1000000
    .micros (sec.toNat * 1000000 + nsec.toNat / 1000)

/-! ## kqueue -/

/-- EVFILT_READ, EVFILT_WRITE. Belongs to the model of spreadtrum-t117/aosl_hal_iomp.c:28-198, kernel/et_mp.c:118-167. -/
inductive Filt where
  | read
  | write
deriving DecidableEq, Repr

/-- The filters registered: for each fd and filter, whether it is edge-triggered (EV_CLEAR). Belongs to the model of spreadtrum-t117/aosl_hal_iomp.c:28-198, kernel/et_mp.c:118-167. -/
abbrev KQ : Type := Int → Filt → Option Bool

/-- One element of a change list. Belongs to the model of spreadtrum-t117/aosl_hal_iomp.c:28-198, kernel/et_mp.c:118-167. -/
inductive Change where
  | add (fd : Int) (f : Filt) (clear : Bool)
  | del (fd : Int) (f : Filt)
deriving DecidableEq, Repr

/-- A table changed at one place, as an assignment to one element or one object does; used in the model of spreadtrum-t117/aosl_hal_iomp.c:28-198, kernel/et_mp.c:118-167. -/
def KQ.set (k : KQ) (fd : Int) (f : Filt) (v : Option Bool) : KQ := fun fd' f' => if fd' = fd ∧ f' = f then v else k fd' f'

/-- kevent with a change list and no room for events: applied in order up to the first failure. `can fd f`: the system can watch `fd` with `f`. Belongs to the model of spreadtrum-t117/aosl_hal_iomp.c:28-198, kernel/et_mp.c:118-167. -/
def kevent (can : Int → Filt → Bool) : KQ → List Change → KQ × Bool
  | k, [] => (k, true)
  | k, .add fd f c :: cs => if can fd f then kevent can (k.set fd f (some c)) cs else (k, false)
  | k, .del fd f :: cs => if (k fd f).isSome then kevent can (k.set fd f none) cs else (k, false)

/-- The events asked for. Belongs to the model of spreadtrum-t117/aosl_hal_iomp.c:28-198, kernel/et_mp.c:118-167. -/
structure Want where
  inn : Bool
  out : Bool
  et : Bool
deriving DecidableEq, Repr

/-- darwin/aosl_hal_iomp.c:40-51, 62-73 -/
def adds (fd : Int) (w : Want) : List Change :=
  (if w.inn then [.add fd .read w.et] else []) ++ (if w.out then [.add fd .write w.et] else [])

/-- darwin/aosl_hal_iomp.c:57-58, 77-78 -/
def dels (fd : Int) : List Change := [.del fd .read, .del fd .write]

/-- The calls of aosl_hal_epoll_ctl. Belongs to the model of spreadtrum-t117/aosl_hal_iomp.c:28-198, kernel/et_mp.c:118-167. -/
inductive Ctl where
  | add (fd : Int) (w : Want)
  | mod (fd : Int) (w : Want)
  | del (fd : Int)
deriving DecidableEq, Repr

/-- aosl_hal_epoll_ctl, darwin/aosl_hal_iomp.c:28-94: the filters afterwards and whether it returns 0. -/
def ctl (can : Int → Filt → Bool) (k : KQ) : Ctl → KQ × Bool
  | .add fd w => kevent can k (adds fd w)
  | .mod fd w => kevent can (kevent can k (dels fd)).1 (adds fd w)
  | .del fd => ((kevent can k (dels fd)).1, true)

/-- One event of kevent: EV_ERROR, EV_EOF. Belongs to the model of spreadtrum-t117/aosl_hal_iomp.c:28-198, kernel/et_mp.c:118-167. -/
structure KEv where
  fd : Int
  filt : Filt
  error : Bool
  eof : Bool
deriving DecidableEq, Repr

/-- aosl_hal_epoll_wait, darwin/aosl_hal_iomp.c:118-129: one event of the library for each. -/
def report (e : KEv) : Int × Rev := (e.fd, ⟨e.error, e.filt = .write, e.filt = .read, e.eof⟩)

/-- os_mp_dispatch_epoll (kernel/et_mp.c:118-167) for the events of one fd, in order. -/
def dispatchAll (c : IoRead.Cfg) (w : WOut) (rs : List IoRead.RRes) : BFd → List KEv → BFd
  | f, [] => f
  | f, e :: es => dispatchAll c w rs (dispatch .epoll c f (report e).2 w rs) es

end Verif.PortIomp
