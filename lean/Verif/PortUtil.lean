/-!
# Device ids and random bytes on the ports

Models `aosl_get_uuid` and `aosl_rand_bytes` (lib/utils.c:13-36) with `aosl_hal_get_uuid` and `aosl_hal_rand_bytes` of the ports other than linux (C136, C137):
platform/src/{ac791n,asr1606,bk725x,darwin,esp32,harmony,ipro7,rtl8713,spreadtrum-*,tw82x,windows,xr872}/aosl_hal_utils.c.

Simplifications: what the chip or the system answers (tick, heap, chip number, hardware random words, random bytes) is given in an environment; the C library's
`srand`/`rand` is any function from the seed to the numbers that follow; `char` values are numbers; `RAND_MAX` of rtl8713 is newlib's 2^31 - 1.
The buffer is what is written to it: a list of (index, value), in order.
-/

namespace Verif.PortUtil

/-- the character of a hex digit, as printed by `%x` and kept in the tables `hex`. Belongs to the model of lib/utils.c:13-36. -/
def hexd (n : Nat) : Nat := if n < 10 then 48 + n else 87 + n

/-- `%02x` of a byte -/
def hex2 (b : Nat) : List Nat := [hexd (b / 16 % 16), hexd (b % 16)]

/-- `%08x` of a `uint32_t` -/
def hex8 (n : Nat) : List Nat := hex2 (n / 2 ^ 24 % 256) ++ hex2 (n / 2 ^ 16 % 256) ++ hex2 (n / 2 ^ 8 % 256) ++ hex2 (n % 256)

/-- all bytes as text. Belongs to the model of lib/utils.c:13-36. -/
def hexBytes (bs : List Nat) : List Nat := bs.flatMap hex2

/-- What the platform answers during one call.  `tick`: milliseconds (or system ticks); `sec`: TM_GetTotalSeconds; `heap`: the free heap; `chip`: the chip's number
(bk_uid_get_data, the MAC address, EFUSE_GetUUID); `hw`: the words of the hardware generator, or of the sleep counter; `bytes`: 16 bytes from the system's generator, `rngOk` if
there are; `rnd`: for a seed, the numbers `rand` gives after `srand` of it; `prev`: the number `rand` gives before. -/
structure Env where
  tick : Nat
  sec : Nat
  heap : Nat
  chip : Nat
  hw : Nat → Nat
  bytes : List Nat
  rngOk : Bool
  rnd : Nat → Nat → Nat
  prev : Nat

inductive Port
  | ac791n | asr1606 | bk725x | darwin | esp32 | harmony | ipro7 | rtl8713
  /-- spreadtrum-t117, w117, w307, w337 -/
  | sprd
  /-- spreadtrum-8910ff, w217: with the 32 kHz sleep counter -/
  | sprd32k
  | tw82x | windows | xr872
deriving DecidableEq, Repr

/-- a `uint32_t` -/
def u32 (n : Nat) : Nat := n % 2 ^ 32

/-- `random_a4` (asr1606/aosl_hal_utils.c:8-27, the same in bk725x, ipro7, tw82x). -/
def randomA4 (a1 a2 a3 : Nat) : Nat :=
  let a1 := BitVec.ofNat 32 a1
  let a2 := BitVec.ofNat 32 a2
  let a3 := BitVec.ofNat 32 a3
  let round (hash : BitVec 32) (i : Nat) : BitVec 32 :=
    let byte : BitVec 8 := (hash >>> (8 * i)).setWidth 8 ^^^ (a1 >>> (8 * i)).setWidth 8 ^^^ (a2 >>> (8 * (3 - i))).setWidth 8 ^^^
      (a3 >>> (8 * ((i + 1) % 4))).setWidth 8
    let byte := (byte * 0x1B#8) ^^^ (byte >>> 1)
    hash ^^^ ((byte.setWidth 32) <<< (8 * i))
  let hash := [0, 1, 2, 3].foldl round (a1 ^^^ 0xffffffff#32)
  let hash := hash ^^^ a2
  let hash := hash ^^^ (hash <<< 13)
  let hash := hash ^^^ a3
  (hash ^^^ (hash >>> 17)).toNat

/-- One round of the seed's loop, `s = (s << 2) + (s << 1) + s` (rtl8713/aosl_hal_utils.c:18-21). -/
def times7 (s : Nat) : Nat := u32 (7 * s)

/-- `while (s > RAND_MAX)` (rtl8713/aosl_hal_utils.c:18-21), at most `fuel` rounds; `none`: still in the loop. -/
def rtlSeed : Nat → Nat → Option Nat
  | 0, _ => none
  | fuel + 1, s => if s > 2 ^ 31 - 1 then rtlSeed fuel (times7 s) else some s

/-- Setting the bits of version and variant of a random uuid: windows/aosl_hal_utils.c:33-34, darwin/aosl_hal_utils.c:28-29. -/
def version4 (bs : List Nat) : List Nat :=
  (bs.set 6 (bs.getD 6 0 % 16 + 64)).set 8 (bs.getD 8 0 % 64 + 128)

/-- The characters each port prints; `none`: no random bytes, the call fails.  `seed`: the seed rtl8713 ends with. -/
def text (p : Port) (e : Env) (seed : Nat) : Option (List Nat) :=
  match p with
  -- ac791n/aosl_hal_utils.c:11-27
  | .ac791n =>
    let r1 := u32 (e.hw 1)
    let r2 := u32 (e.hw 2)
    some (hex8 (e.hw 0) ++ hex8 (r1 / 65536 * 65536 + 16384 + r1 % 4096) ++ hex8 (r2 % 2 ^ 30 + 2 ^ 31) ++ hex8 (e.hw 3))
  -- asr1606/aosl_hal_utils.c:35-52
  | .asr1606 =>
    let r1 := (BitVec.ofNat 32 e.tick ^^^ (BitVec.ofNat 32 e.heap <<< 16) ^^^ (BitVec.ofNat 32 e.heap >>> 16)).toNat
    some (hex8 e.heap ++ hex8 e.tick ++ hex8 r1 ++ hex8 (e.rnd (randomA4 e.tick r1 e.heap) 0))
  -- bk725x/aosl_hal_utils.c:36-59
  | .bk725x => some (hex8 e.chip ++ hex8 e.tick ++ hex8 (e.hw 0) ++ hex8 (e.rnd (randomA4 e.tick (e.hw 0) e.chip) 0))
  -- darwin/aosl_hal_utils.c:24-37
  | .darwin => some (hexBytes (version4 e.bytes))
  -- esp32/aosl_hal_utils.c:17-42
  | .esp32 =>
    let seed := BitVec.ofNat 32 e.chip ^^^ BitVec.ofNat 32 e.tick
    some (hex8 e.chip ++ hex8 e.tick ++ hex8 (BitVec.ofNat 32 (e.hw 0) ^^^ seed).toNat ++ hex8 (BitVec.ofNat 32 (e.hw 1) ^^^ (seed >>> 16)).toNat)
  -- harmony/aosl_hal_utils.c:23-51
  | .harmony => if e.rngOk then some (hexBytes e.bytes) else none
  -- ipro7/aosl_hal_utils.c:33-53
  | .ipro7 => some (hex8 0xDEADBEEF ++ hex8 e.tick ++ hex8 e.prev ++ hex8 (e.rnd (randomA4 e.tick e.prev 0xDEADBEEF) 0))
  -- rtl8713/aosl_hal_utils.c:23-33
  | .rtl8713 =>
    let t := (BitVec.ofNat 64 e.tick ^^^ BitVec.ofNat 64 e.chip).toNat
    some (hex8 (t / 2 ^ 32) ++ hex8 t ++ hex8 (e.rnd seed 0) ++ hex8 (e.rnd seed 1))
  -- spreadtrum-w117/aosl_hal_utils.c:12-21
  | .sprd => some (hex8 e.tick ++ hex8 e.sec ++ hex8 (e.rnd (u32 (u32 e.tick + e.sec)) 0) ++ hex8 (e.rnd (u32 (u32 e.tick + e.sec)) 1))
  -- spreadtrum-w217/aosl_hal_utils.c:13-20
  | .sprd32k => some (hex8 e.tick ++ hex8 e.sec ++ hex8 (e.hw 0) ++ hex8 (e.hw 1))
  -- tw82x/aosl_hal_utils.c:52-65
  | .tw82x => some (hex8 0x12345678 ++ hex8 e.tick ++ hex8 (e.rnd (u32 e.tick) 0) ++ hex8 (e.rnd (randomA4 e.tick (e.rnd (u32 e.tick) 0) 0x12345678) 0))
  -- windows/aosl_hal_utils.c:29-40
  | .windows => if e.rngOk then some (hexBytes (version4 e.bytes)) else none
  -- xr872/aosl_hal_utils.c:31-37
  | .xr872 => some (hexBytes e.bytes)

/-- the conversion of `size_t` to `int` in `aosl_get_uuid` (lib/utils.c:15) -/
def toInt (n : Nat) : Int := if n % 2 ^ 32 < 2 ^ 31 then (n % 2 ^ 32 : Nat) else (n % 2 ^ 32 : Nat) - 2 ^ 32

/-- `int` to `size_t`, as `snprintf` takes its size. Belongs to the model of lib/utils.c:13-36. -/
def toSize (i : Int) : Nat := if i < 0 then (2 ^ 64 + i).toNat else i.toNat

/-- values stored one after another from index `at`. Belongs to the model of lib/utils.c:13-36. -/
def store (start : Nat) : List Nat → List (Nat × Nat)
  | [] => []
  | c :: cs => (start, c) :: store (start + 1) cs

/-- `snprintf (buf + start, size, ...)` of `cs`. Belongs to the model of lib/utils.c:13-36. -/
def snp (start size : Nat) (cs : List Nat) : List (Nat × Nat) := if size = 0 then [] else store start (cs.take (size - 1) ++ [0])

/-- The loop of darwin (darwin/aosl_hal_utils.c:31-37): `snprintf` answers 2 even if it had room for less. -/
def darwinLoop (sz : Nat) : List Nat → Nat → List (Nat × Nat)
  | [], d => [(d, 0)]
  | b :: bs, d => if d < sz - 1 then snp d (sz - d) (hex2 b) ++ darwinLoop sz bs (d + 2) else [(d, 0)]

/-- The loop of harmony (harmony/aosl_hal_utils.c:44-50). -/
def harmonyLoop (sz : Nat) : List Nat → Nat → List (Nat × Nat)
  | [], d => [(d, 0)]
  | b :: bs, d =>
    if d < sz - 1 then
      (d, hexd (b / 16 % 16)) :: (if d + 1 < sz - 1 then (d + 1, hexd (b % 16)) :: harmonyLoop sz bs (d + 2) else harmonyLoop sz bs (d + 1))
    else [(d, 0)]

/-- How a call ends: still in the loop of rtl8713, or with an answer and what was written to the buffer. -/
inductive Out
  | running
  | ret (r : Int) (w : List (Nat × Nat))
deriving DecidableEq, Repr

/-- `aosl_get_uuid (buf, bufSz)` on port `p`. -/
def getUuid (fuel : Nat) (p : Port) (e : Env) (bufSz : Nat) : Out :=
  let sz := toInt bufSz
  match p with
  -- no check of the size: ac791n/aosl_hal_utils.c:7-29, spreadtrum-*/aosl_hal_utils.c
  | .ac791n | .sprd | .sprd32k =>
    match text p e 0 with
    | none => .ret (-1) []
    | some t => .ret 0 (snp 0 (toSize sz) t)
  | .darwin => if sz ≤ 1 then .ret (-1) [] else .ret 0 (darwinLoop sz.toNat (version4 e.bytes) 0)
  | .harmony => if sz ≤ 1 then .ret (-1) [] else if e.rngOk then .ret 0 (harmonyLoop sz.toNat e.bytes 0) else .ret (-1) []
  -- windows/aosl_hal_utils.c:42-47
  | .windows =>
    if sz ≤ 1 then .ret (-1) [] else
    match text p e 0 with
    | none => .ret (-1) []
    | some t =>
      let copyLen := if sz.toNat - 1 > 32 then 32 else sz.toNat - 1
      .ret 0 (store 0 (t.take copyLen) ++ [(copyLen, 0)])
  | .rtl8713 =>
    if sz ≤ 1 then .ret (-1) [] else
    match rtlSeed fuel (u32 e.tick) with
    | none => .running
    | some seed =>
      match text p e seed with
      | none => .ret (-1) []
      | some t => .ret 0 (snp 0 (toSize sz) t)
  | p =>
    if sz ≤ 1 then .ret (-1) [] else
    match text p e 0 with
    | none => .ret (-1) []
    | some t => .ret 0 (snp 0 (toSize sz) t)

/-! ## Random bytes -/

/-- a word as it lies in memory (little-endian). Belongs to the model of lib/utils.c:13-36. -/
def wordBytes (n : Nat) : List Nat := [n % 256, n / 256 % 256, n / 65536 % 256, n / 16777216 % 256]

/-- The loop of `aosl_hal_rand_bytes` on esp32 (esp32/aosl_hal_utils.c:55-76): word by word, the last one cut. -/
def espFill (hw : Nat → Nat) (len : Nat) (off k : Nat) : List Nat :=
  if h : off < len then
    if len - off ≥ 4 then wordBytes (hw k) ++ espFill hw len (off + 4) (k + 1)
    else (wordBytes (hw k)).take (len - off)
  else []
termination_by len - off

/-- `aosl_rand_bytes` (lib/utils.c:32-39): `AOSL_HAL_HAVE_HWRNG` is 1 on esp32, harmony and windows (and linux); the bytes stored, from index 0.  Windows:
BCryptGenRandom; harmony: the loop of linux (C137), here with the bytes it ends with. -/
def randBytes (p : Port) (e : Env) (sys : List Nat) (len : Nat) : Int × List Nat :=
  let l := toInt len
  match p with
  | .esp32 => if l ≤ 0 then (-1, []) else (0, espFill e.hw l.toNat 0 0)
  | .windows | .harmony => if l ≤ 0 then (-1, []) else if e.rngOk then (0, sys.take l.toNat) else (-1, [])
  | _ => (-1, [])

end Verif.PortUtil
