/-!
  Model of include/kernel/swab.h, include/kernel/byteorder/{little,big}_endian.h, net/sk_utils.c:35-50,
  include/api/aosl_integer_wrappings.h and the error convention of include/kernel/err.h.
  Machine words are bit vectors; `uintptr_t` is 64 bits wide.
-/
namespace Verif.Words

/-! ### Byte order -/

/-- swab.h:15-17, 35-39 -/
def swab16 (x : BitVec 16) : BitVec 16 :=
  ((x &&& 0x00ff#16) <<< 8) ||| ((x &&& 0xff00#16) >>> 8)

/-- swab.h:19-23, 41-44 -/
def swab32 (x : BitVec 32) : BitVec 32 :=
  ((x &&& 0x000000ff#32) <<< 24) ||| ((x &&& 0x0000ff00#32) <<< 8) |||
  ((x &&& 0x00ff0000#32) >>> 8) ||| ((x &&& 0xff000000#32) >>> 24)

/-- swab.h:25-33, 46-49 -/
def swab64 (x : BitVec 64) : BitVec 64 :=
  ((x &&& 0x00000000000000ff#64) <<< 56) ||| ((x &&& 0x000000000000ff00#64) <<< 40) |||
  ((x &&& 0x0000000000ff0000#64) <<< 24) ||| ((x &&& 0x00000000ff000000#64) <<< 8) |||
  ((x &&& 0x000000ff00000000#64) >>> 8) ||| ((x &&& 0x0000ff0000000000#64) >>> 24) |||
  ((x &&& 0x00ff000000000000#64) >>> 40) ||| ((x &&& 0xff00000000000000#64) >>> 56)

/-- The cases distinguished in the model of net/sk_utils.c:35-50. -/
inductive Endian where
  | little | big
  deriving DecidableEq, Repr

/-- little_endian.h:22-35, big_endian.h:22-34: conversions to and from big / little endian. -/
def cpuToBe16 : Endian → BitVec 16 → BitVec 16
  | .little, x => swab16 x
  | .big, x => x
/-- Belongs to the model of net/sk_utils.c:35-50. -/
def be16ToCpu : Endian → BitVec 16 → BitVec 16
  | .little, x => swab16 x
  | .big, x => x
/-- Belongs to the model of net/sk_utils.c:35-50. -/
def cpuToBe32 : Endian → BitVec 32 → BitVec 32
  | .little, x => swab32 x
  | .big, x => x
/-- Belongs to the model of net/sk_utils.c:35-50. -/
def be32ToCpu : Endian → BitVec 32 → BitVec 32
  | .little, x => swab32 x
  | .big, x => x
/-- Belongs to the model of net/sk_utils.c:35-50. -/
def cpuToBe64 : Endian → BitVec 64 → BitVec 64
  | .little, x => swab64 x
  | .big, x => x
/-- Belongs to the model of net/sk_utils.c:35-50. -/
def be64ToCpu : Endian → BitVec 64 → BitVec 64
  | .little, x => swab64 x
  | .big, x => x
/-- Belongs to the model of net/sk_utils.c:35-50. -/
def cpuToLe16 : Endian → BitVec 16 → BitVec 16
  | .little, x => x
  | .big, x => swab16 x
/-- Belongs to the model of net/sk_utils.c:35-50. -/
def le16ToCpu : Endian → BitVec 16 → BitVec 16
  | .little, x => x
  | .big, x => swab16 x
/-- Belongs to the model of net/sk_utils.c:35-50. -/
def cpuToLe32 : Endian → BitVec 32 → BitVec 32
  | .little, x => x
  | .big, x => swab32 x
/-- Belongs to the model of net/sk_utils.c:35-50. -/
def le32ToCpu : Endian → BitVec 32 → BitVec 32
  | .little, x => x
  | .big, x => swab32 x
/-- Belongs to the model of net/sk_utils.c:35-50. -/
def cpuToLe64 : Endian → BitVec 64 → BitVec 64
  | .little, x => x
  | .big, x => swab64 x
/-- Belongs to the model of net/sk_utils.c:35-50. -/
def le64ToCpu : Endian → BitVec 64 → BitVec 64
  | .little, x => x
  | .big, x => swab64 x

/-- net/sk_utils.c:35-50, byteorder/generic.h:159-162 -/
def htonl (e : Endian) := cpuToBe32 e
/-- Belongs to the model of net/sk_utils.c:35-50. -/
def htons (e : Endian) := cpuToBe16 e
/-- Belongs to the model of net/sk_utils.c:35-50. -/
def ntohl (e : Endian) := be32ToCpu e
/-- Belongs to the model of net/sk_utils.c:35-50. -/
def ntohs (e : Endian) := be16ToCpu e

/-- swab.h:99-104 aosl__bswap_mem on non-overlapping areas. -/
def bswapMem (src : List (BitVec 8)) : List (BitVec 8) :=
  (List.range src.length).map fun i => src.getD (src.length - i - 1) 0#8

/-! ### Wrap-around comparison, aosl_integer_wrappings.h:32-126, for a width of `w` bits -/

/-- Belongs to the model of aosl_integer_wrappings.h:32-126. -/
def after {w : Nat} (a b : BitVec w) : Bool := decide ((a - b).toInt > 0)
/-- Belongs to the model of aosl_integer_wrappings.h:32-126. -/
def afterEq {w : Nat} (a b : BitVec w) : Bool := decide ((a - b).toInt ≥ 0)
/-- Belongs to the model of aosl_integer_wrappings.h:32-126. -/
def before {w : Nat} (a b : BitVec w) : Bool := after b a
/-- Belongs to the model of aosl_integer_wrappings.h:32-126. -/
def beforeEq {w : Nat} (a b : BitVec w) : Bool := afterEq b a
/-- Belongs to the model of aosl_integer_wrappings.h:32-126. -/
def inRange {w : Nat} (x a b : BitVec w) : Bool := afterEq x a && beforeEq x b
/-- Belongs to the model of aosl_integer_wrappings.h:32-126. -/
def prev {w : Nat} (v : BitVec w) : BitVec w := v - 1
/-- Belongs to the model of aosl_integer_wrappings.h:32-126. -/
def next {w : Nat} (v : BitVec w) : BitVec w := v + 1
/-- Belongs to the model of aosl_integer_wrappings.h:32-126. -/
def dist {w : Nat} (a b : BitVec w) : BitVec w := if after a b then a - b else b - a

/-! ### Error convention -/

/-- err.h:25 -/
def MAX_ERRNO : Nat := 4095

/-- err.h:27 IS_ERR_VALUE on a machine word -/
def isErrValue (x : BitVec 64) : Bool := decide (x.toNat ≥ (-(BitVec.ofNat 64 MAX_ERRNO)).toNat)

/-- `aosl_errno = -(err)`, err.h:50; aosl_errno is an `int`. -/
def errnoOf (x : BitVec 64) : BitVec 32 := (-x).truncate 32

/-- err.h:77-84 return_err in a function returning `int`; the second component is aosl_errno. -/
def returnErr (err : BitVec 64) (errno : BitVec 32) : BitVec 32 × BitVec 32 :=
  if isErrValue err then (BitVec.ofInt 32 (-1), errnoOf err) else (err.truncate 32, errno)

/-- err.h:86-91 return_errno in a function returning `int` -/
def returnErrno (err : BitVec 64) : BitVec 32 :=
  if isErrValue err then (-err).truncate 32 else err.truncate 32

/-- err.h:93-111 return_ptr_err -/
def returnPtrErr (p : BitVec 64) (errno : BitVec 32) : BitVec 64 × BitVec 32 :=
  if isErrValue p then (0, errnoOf p)
  else if p = 0 then (0, 0)
  else (p, errno)


end Verif.Words
