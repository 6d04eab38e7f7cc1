/-!
# The small system services: identity strings, random bytes, files, sleeping, clock text, atomics, logging, priorities

Models lib/utils.c, kernel/file.c, kernel/log.c, kernel/time.c, lib/atomic.c (with include/kernel/atomic.h) on top of the Linux HAL
(platform/src/linux/aosl_hal_utils.c, aosl_hal_file.c, aosl_hal_time.c, aosl_hal_atomic.c, aosl_hal_thread.c:72-107).

What the OS calls return is an input.  `size_t` and `uint64_t` values are natural numbers; `int` conversions are explicit.
-/

namespace Verif.SysApi

/-- Conversion of an integer to a 32-bit `int`. -/
def toInt32 (x : Int) : Int := (x + 2 ^ 31) % 2 ^ 32 - 2 ^ 31

/-! ## aosl_get_uuid, aosl_os_version -/

/-- A call that fills a character buffer: its result and the bytes it stores at `buf [0]`, `buf [1]`, …. Belongs to the model of aosl_hal_thread.c:72-107. -/
structure Filled where
  ret : Int
  bytes : List Nat
deriving DecidableEq, Repr

/-- The copy loop (aosl_hal_utils.c:34-42): `-`, `\n` and `\r` are skipped, at most `room` characters are stored. -/
def uuidCopy (room : Nat) : List Nat → List Nat
  | [] => []
  | c :: cs => if room = 0 then [] else if c ≠ 45 ∧ c ≠ 10 ∧ c ≠ 13 then c :: uuidCopy (room - 1) cs else uuidCopy room cs

/-- aosl_get_uuid (lib/utils.c:14-17, aosl_hal_utils.c:8-50).  `src`: what was read from the kernel's uuid file, `none` if it could not be opened or read. -/
def getUuid (src : Option (List Nat)) (bufSz : Nat) : Filled :=
  let sz := toInt32 bufSz
  if sz ≤ 1 then ⟨-1, []⟩ else
  match src with
  | none => ⟨-1, [0]⟩
  | some cs => ⟨0, uuidCopy (sz.toNat - 1) (cs.take 256) ++ [0]⟩

/-- aosl_os_version (lib/utils.c:19-22, aosl_hal_utils.c:52-86); read gives at most `buf_sz - 1` characters. -/
def osVersion (src : Option (List Nat)) (bufSz : Nat) : Filled :=
  let sz := toInt32 bufSz
  if sz ≤ 1 then ⟨-1, []⟩ else
  match src with
  | none => ⟨-1, [0]⟩
  | some cs => ⟨0, cs.take (sz.toNat - 1) ++ [0]⟩

/-! ## aosl_rand_bytes -/

/-- Result of one `read` of /dev/urandom: some bytes (cut to what was asked for), an interruption, another error. Belongs to the model of aosl_hal_thread.c:72-107. -/
inductive Rd where
  | bytes (bs : List Nat)
  | eintr
  | error
deriving Repr

/-- The loop (aosl_hal_utils.c:101-110); `left` bytes to go.  `none`: still reading when the given results are used up. -/
def randLoop (left : Nat) : List Rd → Option (Int × List Nat)
  | [] => if left = 0 then some (0, []) else none
  | r :: rs =>
    if left = 0 then some (0, []) else
    match r with
    | .eintr => randLoop left rs
    | .error => some (-1, [])
    | .bytes bs => (randLoop (left - (bs.take left).length) rs).map (fun x => (x.1, bs.take left ++ x.2))

/-- aosl_rand_bytes (lib/utils.c:33-39, aosl_hal_utils.c:88-114) with a buffer that is not NULL: the result and the bytes stored. -/
def randBytes (opened : Bool) (len : Nat) (rs : List Rd) : Option (Int × List Nat) :=
  let n := toInt32 len
  if n ≤ 0 then some (-1, []) else if !opened then some (-1, []) else randLoop n.toNat rs

/-! ## Files -/

/-- What a path names. Belongs to the model of aosl_hal_thread.c:72-107. -/
inductive Node where
  | absent
  | file (size : Nat)
  | dir
deriving DecidableEq, Repr

/-- aosl_fsize (kernel/file.c:25-28, aosl_hal_file.c:21-28): `st_size` converted to `int`.  The size of a directory is unspecified and not modelled. -/
def fsize (n : Node) : Int :=
  match n with
  | .absent => -1
  | .file size => toInt32 size
  | .dir => 0

/-- aosl_fread and aosl_fwrite (kernel/file.c:60-68, aosl_hal_file.c:59-67): the number of bytes moved by the C library converted to `int`. -/
def ioCount (moved : Nat) : Int := toInt32 moved

/-- aosl_mkdir (kernel/file.c:12-18, aosl_hal_file.c:6-9): the result and what the path names afterwards.  `ok`: the OS can create a directory there. -/
def mkdir (n : Node) (ok : Bool) : Int × Node :=
  if n ≠ .absent then (0, n) else if ok then (0, .dir) else (-1, .absent)

/-! ## Sleeping and clocks -/

/-- The microseconds aosl_msleep sleeps (kernel/time.c:39-45, aosl_hal_time.c:49-52): `usleep` takes a 32-bit number. -/
def msleepUs (ms : Nat) : Nat := ((if ms = 0 then 1 else ms) * 1000 % 2 ^ 64) % 2 ^ 32

/-- aosl_tick_ms, aosl_tick_now (kernel/time.c:14-22, aosl_hal_time.c:8-17) at `sec` seconds and `nsec` nanoseconds of the monotonic clock. -/
def tickMs (sec nsec : Nat) : Nat := (sec * 1000 + nsec / 1000000) % 2 ^ 64

/-- aosl_tick_us (kernel/time.c:24-27). -/
def tickUs (_sec _nsec : Nat) : Nat := 0

/-- aosl_time_ms (kernel/time.c:34-37, aosl_hal_time.c:19-26). -/
def timeMs (sec usec : Nat) : Nat := (sec * 1000 + usec / 1000) % 2 ^ 64

/-- aosl_time_sec (kernel/time.c:29-32). -/
def timeSec (sec usec : Nat) : Nat := timeMs sec usec / 1000

/-- Stores a string with its NUL at index `i` of an array; `none` if it does not fit. Belongs to the model of aosl_hal_thread.c:72-107. -/
def store (a : List Nat) (i : Nat) (s : List Nat) : Option (List Nat) :=
  if i + s.length + 1 ≤ a.length then some (a.take i ++ s ++ [0] ++ a.drop (i + s.length + 1)) else none

/-- The C string at the start of an array. Belongs to the model of aosl_hal_thread.c:72-107. -/
def cstr (a : List Nat) : List Nat := a.takeWhile (· ≠ 0)

/-- "%03u" of a number below 1000. -/
def pad3 (n : Nat) : List Nat := [48 + n / 100, 48 + n / 10 % 10, 48 + n % 10]

/-- aosl_time_str (kernel/time.c:47-50, aosl_hal_time.c:29-47).  `date`: the characters of "%F %T" for the second; `junk`: what the stack held.
`none`: an overflow of `time_str`.  The bytes stored into the caller's buffer; `len` is converted to `size_t` by snprintf. -/
def timeStr (date : List Nat) (nowMs : Nat) (junk : List Nat) (len : Int) : Option Filled :=
  if len = 0 then some ⟨-1, []⟩ else do
    let a ← store junk 0 date
    let b ← store a 19 (46 :: pad3 (nowMs % 1000))
    let n := if len < 0 then (len + 2 ^ 64).toNat else len.toNat
    pure ⟨0, (cstr b).take (n - 1) ++ [0]⟩

/-! ## Atomics: `intptr_t` has 64 bits -/

/-- The cases distinguished in the model of aosl_hal_thread.c:72-107. -/
inductive AOp where
  | read
  | set (i : BitVec 64)
  | inc
  | dec
  | addReturn (i : BitVec 64)
  | subReturn (i : BitVec 64)
  | incAndTest
  | decAndTest
  | cmpxchg (old new : BitVec 64)
  | xchg (new : BitVec 64)
deriving DecidableEq, Repr

/-- aosl_hal_atomic_add (aosl_hal_atomic.c:52-55): the new value twice, as result and content. -/
def halAdd (i v : BitVec 64) : BitVec 64 := v + i

/-- One call of lib/atomic.c:13-61 (include/kernel/atomic.h:14-32, aosl_hal_atomic.c): the result and the new content.  The void functions return 0 here. -/
def aop (v : BitVec 64) : AOp → BitVec 64 × BitVec 64
  | .read => (v, v)
  | .set i => (0, i)
  | .inc => (0, v + 1)
  | .dec => (0, v - 1)
  | .addReturn i => (halAdd i v, halAdd i v)
  -- aosl_hal_atomic_sub (57-60) adds -i
  | .subReturn i => (halAdd (-i) v, halAdd (-i) v)
  | .incAndTest => (if halAdd 1 v = 0 then 1 else 0, halAdd 1 v)
  | .decAndTest => (if halAdd (-1) v = 0 then 1 else 0, halAdd (-1) v)
  -- __atomic_compare_exchange_n stores the content into `old` if they differ
  | .cmpxchg old new => if v = old then (old, new) else (v, v)
  | .xchg new => (v, new)

/-- Calls of all threads in the order in which they take effect: results and final content. Belongs to the model of aosl_hal_thread.c:72-107. -/
def arun (v : BitVec 64) : List AOp → List (BitVec 64) × BitVec 64
  | [] => ([], v)
  | o :: os => ((aop v o).1 :: (arun (aop v o).2 os).1, (arun (aop v o).2 os).2)

/-! ## Logging (kernel/log.c) -/

/-- `sink`: the function set by the user, `none` for the default one. Belongs to the model of aosl_hal_thread.c:72-107. -/
structure Log where
  level : Int
  sink : Option Nat
deriving DecidableEq, Repr

/-- 22-23: AOSL_LOG_ERROR = 3. -/
def Log.init : Log := ⟨3, none⟩

/-- The cases distinguished in the model of aosl_hal_thread.c:72-107. -/
inductive LOp where
  | setFunc (f : Option Nat)
  | setLevel (l : Int)
  | getLevel
  | log (l : Int) (msg : Nat)
  | printf (msg : Nat)
deriving DecidableEq, Repr

/-- A message handed to a sink with a level. Belongs to the model of aosl_hal_thread.c:72-107. -/
structure Out where
  sink : Option Nat
  level : Int
  msg : Nat
deriving DecidableEq, Repr

/-- ____vlog (45-50). -/
def vlog (g : Log) (l : Int) (msg : Nat) : List Out := if l ≤ g.level then [⟨g.sink, l, msg⟩] else []

/-- kernel/log.c:25-76. -/
def lop (g : Log) : LOp → Log × List Out
  | .setFunc f => ({ g with sink := f }, [])
  | .setLevel l => (if 0 ≤ l ∧ l ≤ 7 then { g with level := l } else g, [])
  | .getLevel => (g, [])
  | .log l m => (g, vlog g l m)
  | .printf m => (g, vlog g g.level m)

/-- Belongs to the model of aosl_hal_thread.c:72-107. -/
def lrun (g : Log) : List LOp → Log × List Out
  | [] => (g, [])
  | o :: os => ((lrun (lop g o).1 os).1, (lop g o).2 ++ (lrun (lop g o).1 os).2)

/-! ## Thread priorities (aosl_hal_thread.c:72-107) -/

/-- The cases distinguished in the model of aosl_hal_thread.c:72-107. -/
inductive Pri where
  | low | normal | high | highest | rt
deriving DecidableEq, Repr

/-- `__get_os_priority` for the scheduler's range `min … max`; EINVAL is 22. -/
def osPriority (min max : Int) (p : Pri) : Option Int :=
  if min = 22 ∨ max = 22 ∨ max - min ≤ 2 then none else
  let top := max - 1
  let low := min + 1
  some (match p with
    | .low => low
    | .normal => (low + top - 1).tdiv 2
    | .high => if top - 2 > low then top - 2 else low
    | .highest => if top - 1 > low then top - 1 else low
    | .rt => top)

end Verif.SysApi
