/-
  Model of how the ports convert sizes and times: the stack of a thread, time-outs, sleeping, the tick count (platform/src/*/aosl_hal_thread.c, aosl_hal_time.c).
  Numbers are unbounded; every conversion to a narrower type is written out.
-/
namespace Verif.PortTime

/-! ## Stacks -/

/-- How a port sizes the stack of a thread. -/
inductive StackPort where
  /-- esp32/aosl_hal_thread.c:79, rtl8713/aosl_hal_thread.c:97, xr872/aosl_hal_thread.c:150: `k` is sizeof (StackType_t) -/
  | rtos (k : Nat)
  /-- bk725x/aosl_hal_thread.c:55-56 (12 KB), ipro7/aosl_hal_thread.c:91-93 (32 KB), spreadtrum-8910ff/aosl_hal_thread.c:31, 50 (16 KB): always the same -/
  | fixed (bytes : Nat)
  /-- ac791n/aosl_hal_thread.c:340-344: words of 4 bytes -/
  | ac791n
  /-- windows/aosl_hal_thread.c:233, asr1606/aosl_hal_thread.c:42-43, tw82x/aosl_hal_thread.c:175: as asked -/
  | asked
deriving DecidableEq, Repr

/-- k_thread_create (kernel/thread.c:85-87): 0 means 16 KB (include/kernel/thread.h:19). -/
def wanted (size : Nat) : Nat := if size = 0 then 16 * 1024 else size

/-- The bytes of stack a thread gets for a positive argument (int, so below 2^31). -/
def stackOf : StackPort → Nat → Nat
  | .rtos k, s => s / k % 65536 * k
  | .fixed b, _ => b
  | .ac791n, s => (if s / 4 < 512 then 512 else s / 4) * 4
  | .asked, s => s

/-! ## Time-outs -/

/-- How long the system lets a thread wait: for ever, or so many units. Belongs to the model of spreadtrum-8910ff/aosl_hal_thread.c:31-574, spreadtrum-8910ff/aosl_hal_time.c:6-45. -/
inductive Wait where
  | forever
  | units (n : Nat)
  /-- a negative number is handed to the system -/
  | undefined
deriving DecidableEq, Repr

/-- windows/aosl_hal_thread.c:519-531, 563-574: milliseconds; INFINITE is 2^32 - 1. -/
def winWait (ms : Int) : Wait :=
  if ms < 0 then .forever else if ms.toNat % 2 ^ 32 = 2 ^ 32 - 1 then .forever else .units (ms.toNat % 2 ^ 32)

/-- rtl8713/aosl_hal_thread.c:269-289, xr872/aosl_hal_thread.c:478-498: ticks; pdMS_TO_TICKS multiplies and divides in TickType_t (32 bits); `hz`: configTICK_RATE_HZ. -/
def rtosWait (hz : Nat) (ms : Int) : Wait :=
  if ms < 0 then .forever
  else
    let t := ms.toNat % 2 ^ 32 * hz % 2 ^ 32 / 1000
    .units (if t = 0 ∧ 0 < ms then 1 else t)

/-- spreadtrum-8910ff/aosl_hal_thread.c:214-234: milliseconds -/
def sprdWait (ms : Int) : Wait := if ms < 0 then .forever else if ms = 0 then .units 1 else .units (ms.toNat % 2 ^ 32)

/-- ac791n/aosl_hal_thread.c:184-191: ticks of 10 ms; 0 is for ever (line 135) -/
def acWait (ms : Int) : Wait :=
  let t := ms.tdiv 10
  let t := if t = 0 ∧ 0 < ms then 1 else t
  if t = 0 then .forever else if t < 0 then .undefined else .units t.toNat

/-- The deadline of the ports on pthreads (linux/aosl_hal_thread.c:276-296, esp32/aosl_hal_thread.c:271-280, bk725x:234-243, ipro7:368-376, darwin:200-210), for any sign:
    seconds and nanoseconds; C divides towards zero. The loop only carries upwards. -/
def deadline (sec nsec ms : Int) : Int × Int :=
  let s := sec + ms.tdiv 1000
  let n := nsec + ms.tmod 1000 * 1000000
  if n ≥ 1000000000 then (s + 1, n - 1000000000) else (s, n)

/-- pthread_cond_timedwait refuses a nanosecond field outside 0 … 999999999 (EINVAL). -/
def accepted (d : Int × Int) : Prop := 0 ≤ d.2 ∧ d.2 < 1000000000

/-- A wait with an absolute deadline `d` on a clock ends at the first time the clock shows at least `d`; `clock t`: what it shows `t` ms after the start. Belongs to the model of spreadtrum-8910ff/aosl_hal_thread.c:31-574, spreadtrum-8910ff/aosl_hal_time.c:6-45. -/
def over (clock : Nat → Int) (d : Int) (t : Nat) : Prop := ∃ u, u ≤ t ∧ d ≤ clock u

/-! ## Sleeping -/

/-- aosl_msleep (kernel/time.c:44-50) and rtl8713/aosl_hal_time.c:32-35: ticks of `p` ms -/
def rtlSleep (p ms : Nat) : Nat := ((if ms = 0 then 1 else ms) + p / 2) / p % 2 ^ 32

/-- ac791n/aosl_hal_time.c:19-25: ticks of 10 ms -/
def acSleep (ms : Nat) : Nat :=
  let m := if ms = 0 then 1 else ms
  let t := m / 10 % 2 ^ 32
  if t = 0 ∧ 0 < m then 1 else t

/-- windows/aosl_hal_time.c:42-45: INFINITE is 2^32 - 1 -/
def winSleep (ms : Nat) : Wait :=
  let d := (if ms = 0 then 1 else ms) % 2 ^ 32
  if d = 2 ^ 32 - 1 then .forever else .units d

/-! ## The tick -/

inductive TickPort where
  /-- a 32-bit count of milliseconds: bk725x/aosl_hal_time.c:7-10, spreadtrum-8910ff/aosl_hal_time.c:6-9, ipro7/aosl_hal_time.c:8-11 -/
  | ms32
  /-- rtl8713/aosl_hal_time.c:9-12: TickType_t times the period, in 32 bits -/
  | rtl (p : Nat)
  /-- asr1606/aosl_hal_time.c:8-11 (5 ms), ac791n/aosl_hal_time.c:7-16 (10 ms): widened before the multiplication -/
  | wide (p : Nat)
  /-- xr872/aosl_hal_time.c:10-18: ticks to milliseconds in 32 bits, into a (signed, 32-bit) long -/
  | xr (p : Nat)
  /-- windows/aosl_hal_time.c:6-9: a 64-bit count -/
  | ms64
deriving DecidableEq, Repr

/-- The conversion of 32 bits to a signed number. -/
def signed32 (n : Nat) : Int := if n % 2 ^ 32 < 2 ^ 31 then (n % 2 ^ 32 : Nat) else (n % 2 ^ 32 : Nat) - 2 ^ 32

/-- The conversion of a number to uint64_t. -/
def u64 (i : Int) : BitVec 64 := BitVec.ofInt 64 i

/-- milliseconds per system tick. Belongs to the model of spreadtrum-8910ff/aosl_hal_thread.c:31-574, spreadtrum-8910ff/aosl_hal_time.c:6-45. -/
def TickPort.period : TickPort → Nat
  | .ms32 => 1
  | .rtl p => p
  | .wide p => p
  | .xr p => p
  | .ms64 => 1

/-- aosl_tick_ms, aosl_tick_now: the value `T` system ticks after the start. Belongs to the model of spreadtrum-8910ff/aosl_hal_thread.c:31-574, spreadtrum-8910ff/aosl_hal_time.c:6-45. -/
def tick : TickPort → Nat → BitVec 64
  | .ms32, T => BitVec.ofNat 64 (T % 2 ^ 32)
  | .rtl p, T => BitVec.ofNat 64 (T % 2 ^ 32 * p % 2 ^ 32)
  | .wide p, T => BitVec.ofNat 64 (T % 2 ^ 32) * BitVec.ofNat 64 p
  | .xr p, T =>
    let ms := signed32 (T % 2 ^ 32 * p)
    u64 (ms.tdiv 1000) * 1000 + u64 ((ms.tmod 1000 * 1000000).tdiv 1000000)
  | .ms64, T => BitVec.ofNat 64 T

/-- time_after_eq (include/kernel/timer.h:80-81): the timer is due (kernel/timer.c:494) -/
def due (now expire : BitVec 64) : Prop := 0 ≤ (now - expire).toInt

/-- The time at which a timer made now fires (kernel/timer.c:382) -/
def expiry (now : BitVec 64) (interval : Nat) : BitVec 64 := now + BitVec.ofNat 64 interval

end Verif.PortTime
