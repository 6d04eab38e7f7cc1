import Verif.PortSock
/-
  Model of the priority a thread of the library ends up with on each port (kernel/thread.c:38-100, platform/src/*/aosl_hal_thread.c) and of what a port prints of a log line
  (kernel/log.c:17-21, platform/src/*/aosl_hal_log.c).
-/
namespace Verif.PortPrio
open Verif.PortSock (Port)

/-- What the system underneath fixes: the range of SCHED_RR priorities (darwin, harmony), whether setting one is permitted, the priority of a thread nobody set, and the priorities of the SDK of tw82x. -/
structure Sys where
  min : Int
  max : Int
  permitted : Bool
  own : Int
  twLow : Int
  twNormal : Int
  twHigh : Int
  twReal : Int
deriving DecidableEq, Repr

/-- OS_PRIORITY_* (rtl8713/aosl_hal_thread.c:17-25; esp32/aosl_hal_thread.c:23-31 has the same) for the classes, rtl8713/aosl_hal_thread.c:66-86 and 141-161; AOSL_THRD_PRI_DEFAULT 0, LOW 1, NORMAL 2, HIGH 3, HIGHEST 4, RT 5 (platform/include/hal/aosl_hal_thread.h:24-31). -/
def rtlPrio (c : Nat) : Int :=
  if c = 1 then 1 else if c = 2 then 3 else if c = 0 then 3 else if c = 3 then 4 else if c = 4 then 5 else if c = 5 then 6 else 3

/-- ac791n/aosl_hal_thread.c:325-336 and 384-392 -/
def acPrio (c : Nat) : Int :=
  if c = 1 then 5 else if c = 2 then 10 else if c = 3 then 20 else if c = 4 then 25 else if c = 5 then 29 else 15

/-- aosl_thread_priority, tw82x/aosl_hal_thread.c:109-125 -/
def twPrio (s : Sys) (c : Nat) : Int :=
  if c = 1 then s.twLow else if c = 2 then s.twNormal else if c = 3 then s.twHigh else if c = 4 then s.twHigh + 5 else if c = 5 then s.twReal else s.twNormal

/-- THREAD_PRIORITY_* of windows/aosl_hal_thread.c:302-329: -1, 0, 1, 2 and 15 -/
def winPrio (c : Nat) : Option Int :=
  if c = 1 then some (-1) else if c = 2 then some 0 else if c = 0 then some 0 else if c = 3 then some 1 else if c = 4 then some 2 else if c = 5 then some 15 else none

/-- __get_os_priority of darwin/aosl_hal_thread.c:68-86 and harmony/aosl_hal_thread.c:71-108 (which also checks for EINVAL, 22) -/
def rrPrio (p : Port) (s : Sys) (c : Nat) : Option Int :=
  if p = .harmony ∧ (s.min = 22 ∨ s.max = 22) then none
  else if s.max - s.min ≤ 2 then none
  else
    let top := s.max - 1
    let low := s.min + 1
    if c = 1 then some low
    else if c = 2 then some ((low + top - 1).tdiv 2)
    else if c = 3 then some (if top - 2 > low then top - 2 else low)
    else if c = 4 then some (if top - 1 > low then top - 1 else low)
    else if c = 5 then some top
    else none

/-- The priority given to the thread in aosl_hal_thread_create: asr1606/aosl_hal_thread.c:10, 44-48 (10); esp32/aosl_hal_thread.c:63-80 (OS_PRIORITY_HIGH, 5); spreadtrum-t117/aosl_hal_thread.c:30, 52 (228; the smaller the more urgent); xr872/aosl_hal_thread.c:169-172 (the number of the class itself; NORMAL, 3, for the default); bk725x, ipro7, darwin, harmony and windows: not given. -/
def atCreate (p : Port) (s : Sys) (c : Nat) : Int :=
  match p with
  | .ac791n => acPrio c
  | .asr1606 => 10
  | .esp32 => 5
  | .rtl8713 => rtlPrio c
  | .spreadtrum => 228
  | .tw82x => twPrio s c
  | .xr872 => if c = 0 then 3 else (c : Int)
  | .bk725x | .darwin | .harmony | .ipro7 | .windows => s.own

/-- aosl_hal_thread_set_priority: `none`: nothing changes. asr1606/aosl_hal_thread.c:96-100, bk725x/aosl_hal_thread.c:89-92, esp32/aosl_hal_thread.c:127-130, ipro7/aosl_hal_thread.c:160-163, spreadtrum-t117/aosl_hal_thread.c:94-97, tw82x/aosl_hal_thread.c:257-260, xr872/aosl_hal_thread.c:325-329 (with joining, line 19) do nothing. -/
def bySet (p : Port) (s : Sys) (c : Nat) : Option Int :=
  match p with
  | .ac791n => some (acPrio c)
  | .rtl8713 => some (rtlPrio c)
  | .windows => winPrio c
  | .darwin | .harmony => if s.permitted then rrPrio p s c else none
  | _ => none

/-- k_thread_create and k_os_thread_entry (kernel/thread.c:56-58, 82-84): the priority the thread runs with. `none`: the class is refused. -/
def prio (p : Port) (s : Sys) (c : Int) : Option Int :=
  if c < 0 ∨ c > 5 then none
  else
    let k := c.toNat
    if 1 ≤ c ∧ c ≤ 5 then
      match bySet p s k with
      | some x => some x
      | none => some (atCreate p s k)
    else some (atCreate p s k)

/-! ## Log lines -/

/-- Where the formatted line goes: whole (vprintf: ac791n/aosl_hal_log.c:10-26, asr1606/aosl_hal_log.c:6-9, windows/aosl_hal_log.c, xr872/aosl_hal_log.c, darwin, esp32 and harmony; ipro7/aosl_hal_log.c:16-20 with its own log) or through a buffer (bk725x/aosl_hal_log.c:6-12, ipro7/aosl_hal_log.c:24-30 without it, rtl8713/aosl_hal_log.c:5-11, spreadtrum-t117/aosl_hal_log.c:6-12, tw82x/aosl_hal_log.c:12-20). `iproLog`: CONFIG_IPRO_LOG_ENABLE. -/
def bufSize (p : Port) (iproLog : Bool) : Option Nat :=
  match p with
  | .bk725x | .rtl8713 | .spreadtrum | .tw82x => some 512
  | .ipro7 => if iproLog then none else some 512
  | _ => none

/-- aosl_hal_printf: what is printed of a formatted line (tw82x prints nothing when there is nothing). -/
def halPrint (p : Port) (iproLog : Bool) (line : List Char) : List Char :=
  match bufSize p iproLog with
  | none => line
  | some n => line.take (n - 1)

end Verif.PortPrio
