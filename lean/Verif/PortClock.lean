import Verif.PortTime
import Verif.SysApi
/-!
# The wall clock and the text of the time on the ports (platform/src/*/aosl_hal_time.c, kernel/time.c:29-50)

The system's clocks are parameters: the ticks since the start, the microseconds since 1970, whether gettimeofday succeeds, and the calendar
(`cal`: what localtime_r / GetLocalTime gives for a second).  A store outside the caller's buffer, a store through a null pointer and a
store outside a local array are the outcome `none`.
-/
namespace Verif.PortClock
open Verif.PortTime (tick TickPort)
open Verif.SysApi (store cstr pad3)

/-- The directories of platform/src; `spreadtrum`: the six spreadtrum directories, whose aosl_hal_time.c are alike. Belongs to the model of kernel/time.c:29-50. -/
inductive Port where
  | linux | ac791n | asr1606 | bk725x | darwin | esp32 | harmony | ipro7 | rtl8713 (period : Nat) | spreadtrum | tw82x | windows | xr872
deriving DecidableEq, Repr

/-- A broken-down local time. Belongs to the model of kernel/time.c:29-50. -/
structure Tm where
  y : Nat
  mo : Nat
  d : Nat
  h : Nat
  mi : Nat
  s : Nat
deriving DecidableEq, Repr

/-- What the system's clocks show at a moment. -/
structure Sys where
  /-- system ticks since the start -/
  ticks : Nat
  /-- microseconds since 1970 -/
  wall : Nat
  /-- gettimeofday succeeds -/
  ok : Bool
  /-- localtime_r, GetLocalTime; `none`: it fails -/
  cal : Nat → Option Tm

/-- gettimeofday, then `sec * 1000 + usec / 1000`, 0 if it fails: linux/aosl_hal_time.c:19-26, darwin:28-34, esp32:17-24, harmony:19-26, tw82x:10-17, xr872:20-28. -/
def gtod (s : Sys) : BitVec 64 := if s.ok then BitVec.ofNat 64 (s.wall / 1000000) * 1000 + BitVec.ofNat 64 (s.wall % 1000000 / 1000) else 0

/-- 100-nanosecond steps from 1601 to 1970: windows/aosl_hal_time.c:4. -/
def epoch100ns : Nat := 116444736000000000

/-- The file time of the system: 100-nanosecond steps since 1601, 11644473600 seconds before 1970. -/
def fileTime (wall : Nat) : Nat := wall * 10 + 11644473600 * 10000000

/-- aosl_hal_get_time_ms of every port, hence aosl_time_ms (kernel/time.c:34-37).  ac791n/aosl_hal_time.c:6-10, asr1606:13-17, bk725x:12-15, ipro7:13-16,
rtl8713:14-17, spreadtrum:11-14 give the tick; windows:14-24 converts the file time. -/
def timeMs : Port → Sys → BitVec 64
  | .ac791n, s => tick (.wide 10) s.ticks
  | .asr1606, s => tick (.wide 5) s.ticks
  | .bk725x, s | .ipro7, s | .spreadtrum, s => tick .ms32 s.ticks
  | .rtl8713 p, s => tick (.rtl p) s.ticks
  | .windows, s => (BitVec.ofNat 64 (fileTime s.wall) - BitVec.ofNat 64 epoch100ns) / 10000
  | .linux, s | .darwin, s | .esp32, s | .harmony, s | .tw82x, s | .xr872, s => gtod s

/-- aosl_time_sec (kernel/time.c:29-32). -/
def timeSec (p : Port) (s : Sys) : BitVec 64 := timeMs p s / 1000

/-- The 32-bit tick where it shows in the text: bk725x/aosl_hal_time.c:25-26, ipro7:33, spreadtrum:24-25. -/
def text32 (s : Sys) : Nat := s.ticks % 2 ^ 32

/-- The characters of a number in decimal ("%u", "%llu"). Belongs to the model of kernel/time.c:29-50. -/
def dec (n : Nat) : List Nat := (Nat.toDigits 10 n).map Char.toNat

/-- "%0ku". Belongs to the model of kernel/time.c:29-50. -/
def pad (k n : Nat) : List Nat := List.replicate (k - (dec n).length) 48 ++ dec n

/-- strftime "%F %T" (linux/aosl_hal_time.c:43), and the date part of windows/aosl_hal_time.c:35-37 -/
def dateText (t : Tm) : List Nat :=
  pad 4 t.y ++ [45] ++ pad 2 t.mo ++ [45] ++ pad 2 t.d ++ [32] ++ pad 2 t.h ++ [58] ++ pad 2 t.mi ++ [58] ++ pad 2 t.s

/-- snprintf (buf, n, text) into the caller's memory: the memory afterwards, `none` if a byte is stored outside it. Belongs to the model of kernel/time.c:29-50. -/
def sn (mem : List Nat) (n : Nat) (text : List Nat) : Option (List Nat) :=
  if n = 0 then some mem
  else if min (n - 1) text.length + 1 ≤ mem.length then some (text.take (n - 1) ++ [0] ++ mem.drop (min (n - 1) text.length + 1)) else none

/-- The conversion of an `int` length to size_t. Belongs to the model of kernel/time.c:29-50. -/
def size (len : Int) : Nat := if len < 0 then (len + 2 ^ 64).toNat else len.toNat

/-- The date, a dot and the milliseconds put together in the local `time_str [24]` (linux/aosl_hal_time.c:43-44, darwin:48-49, esp32:40-41, harmony:43-44,
xr872:44-45, ipro7:47-50; `junk`: what the stack held); `none`: the array is overrun. -/
def local24 (junk : List Nat) (t : Tm) (ms : Nat) : Option (List Nat) := do
  let a ← store junk 0 (dateText t)
  let b ← store a 19 (46 :: pad3 ms)
  pure (cstr b)

/-- The uptime text of ac791n/aosl_hal_time.c:28-41: the seconds are a uint32_t. -/
def uptimeText (ms : Nat) : List Nat :=
  let sec := ms / 1000 % 2 ^ 32
  pad 2 (sec / 60 / 60) ++ [58] ++ pad 2 (sec / 60 % 60) ++ [58] ++ pad 2 (sec % 60) ++ [46] ++ pad 3 (ms % 1000)

/-- What snprintf is given; `none`: the local array is overrun or localtime_r gave a null pointer to strftime.  asr1606/aosl_hal_time.c:19-30, bk725x:17-28, ipro7:19-54,
rtl8713:19-30, spreadtrum:16-27, tw82x:20-31. -/
def text (p : Port) (s : Sys) (junk : List Nat) : Option (List Nat) :=
  match p with
  | .ac791n => some (uptimeText (timeMs p s).toNat)
  | .asr1606 | .rtl8713 _ => some (dec (timeMs p s).toNat)
  | .bk725x | .spreadtrum => some (dec (text32 s))
  | .tw82x => some (dec ((timeMs p s).toNat / 1000 % 2 ^ 32))
  | .ipro7 =>
    if s.ok then
      match s.cal (s.wall / 1000000) with
      | some t => local24 junk t (s.wall % 1000000 / 1000)
      | none => some (dec (s.wall / 1000000 * 1000 + s.wall % 1000000 / 1000))
    else some (dec (text32 s))
  | .windows => (s.cal (s.wall / 1000000)).map fun t => dateText t ++ [46] ++ pad 3 (s.wall / 1000 % 1000)
  | .linux | .darwin | .esp32 | .harmony | .xr872 => do
    let t ← s.cal ((timeMs p s).toNat / 1000)
    local24 junk t ((timeMs p s).toNat % 1000)

/-- windows/aosl_hal_time.c:35-38: `_snprintf` stores no NUL when the text fills the buffer, then `buf [len - 1] = '\0'`. -/
def winStore (mem : List Nat) (len : Nat) (t : List Nat) : Option (List Nat) :=
  if len ≤ mem.length then
    let m := t.take len ++ (if t.length < len then [0] else []) ++ mem.drop (min len (t.length + 1))
    some (m.set (len - 1) 0)
  else none

/-- aosl_time_str (kernel/time.c:47-50) on every port.  `mem`: the caller's buffer, `none` for a null pointer.  The result and the buffer afterwards; `none`: a wild store. -/
def timeStr (p : Port) (s : Sys) (junk : List Nat) (mem : Option (List Nat)) (len : Int) : Option (Int × List Nat) :=
  match p, mem with
  | .ac791n, none => if len = 0 then some (0, []) else none
  | .ac791n, some m => do let t ← text .ac791n s junk; let m' ← sn m (size len) t; pure (0, m')
  | .windows, none => some (-1, [])
  | .windows, some m => if len ≤ 0 then some (-1, m) else do let t ← text .windows s junk; let m' ← winStore m len.toNat t; pure (0, m')
  | _, none => some (-1, [])
  | p, some m => if len = 0 then some (-1, m) else do let t ← text p s junk; let m' ← sn m (size len) t; pure (0, m')

end Verif.PortClock
