/-!
# How long the poll of a queue and the timed waits block

Models the waiting of kernel/et_mp.c:88-112 (`os_mp_wait_epoll`; kernel/poll_mp.c:63-110 and kernel/select_mp.c:68-112 wait the same way) on top of
`aosl_hal_epoll_wait (..., int timeout_ms)` (platform/src/linux/aosl_hal_iomp.c:62-75), and the deadline arithmetic of `aosl_hal_cond_timedwait` and
`aosl_hal_sem_timedwait` (platform/src/linux/aosl_hal_thread.c:276-296, 342-359).

Simplifications: the OS waits exactly as long as it is told unless a signal comes; no fd becomes ready; the clock is the tick in milliseconds and moves
only while waiting.  `intptr_t` is unbounded here, `int` has 32 bits; passing the timeout to the HAL converts it.
-/

namespace Verif.WaitTime

/-- The conversion from `intptr_t` to `int`. Belongs to the model of kernel/et_mp.c:88-112, kernel/poll_mp.c:63-110, kernel/select_mp.c:68-112. -/
def toInt32 (x : Int) : Int := (x + 2 ^ 31) % 2 ^ 32 - 2 ^ 31

/-- `os_mp_wait` from the label `__again` on: `timeo` is what is left to wait, `stamp` the time stamp, `now` the clock.  `sigs` are the signals to come: each one after so many
milliseconds of waiting.  The result is when the wait ends; `none`: never. Belongs to the model of kernel/et_mp.c:88-112, kernel/poll_mp.c:63-110, kernel/select_mp.c:68-112. -/
def waitLoop (timeo : Int) (stamp now : Nat) : List Nat → Option Nat
  | [] =>
    let t := if timeo > 0 then max (timeo - ((now - stamp : Nat) : Int)) 0 else timeo
    if toInt32 t < 0 then none else some (now + (toInt32 t).toNat)
  | d :: sigs =>
    let t := if timeo > 0 then max (timeo - ((now - stamp : Nat) : Int)) 0 else timeo
    -- the wait is interrupted (EINTR) if the signal comes before its end
    if toInt32 t < 0 ∨ (d : Int) < toInt32 t then waitLoop t now (now + d) sigs else some (now + (toInt32 t).toNat)

/-- `os_mp_wait` at time `now`. Belongs to the model of kernel/et_mp.c:88-112, kernel/poll_mp.c:63-110, kernel/select_mp.c:68-112. -/
def wait (timeo : Int) (now : Nat) (sigs : List Nat) : Option Nat := waitLoop timeo now now sigs

/-- `struct timespec`. Belongs to the model of kernel/et_mp.c:88-112, kernel/poll_mp.c:63-110, kernel/select_mp.c:68-112. -/
structure Ts where
  sec : Nat
  nsec : Nat
deriving DecidableEq, Repr

/-- The `while` loop of the HAL (aosl_hal_thread.c:290-293), which moves whole seconds. -/
def carry : Nat → Ts → Ts
  | 0, t => t
  | n + 1, t => if t.nsec ≥ 1000000000 then carry n ⟨t.sec + 1, t.nsec - 1000000000⟩ else t

/-- The absolute deadline for a wait of `ms` (aosl_hal_thread.c:287-293); the fuel of the loop is enough (`C114_deadline`). -/
def deadline (now : Ts) (ms : Nat) : Ts := carry (now.nsec + ms % 1000 * 1000000) ⟨now.sec + ms / 1000, now.nsec + ms % 1000 * 1000000⟩

/-! ## Specification -/

/-- Nanoseconds since the clock's start. Belongs to the model of kernel/et_mp.c:88-112, kernel/poll_mp.c:63-110, kernel/select_mp.c:68-112. -/
def Ts.ns (t : Ts) : Nat := t.sec * 1000000000 + t.nsec

end Verif.WaitTime
