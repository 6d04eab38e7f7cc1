import Verif.Words
/-!
  Model of include/kernel/ipv6.h, net/ipv6.c and the address helpers of net/sk_utils.c:809-1236
  (CONFIG_AOSL_IPV6 enabled), plus net/route.c:327-371.

  An object in memory is the function giving its bytes; an IPv6 address has the bytes 0..15, an IPv4
  address the bytes 0..3.  32-bit words are loaded with the byte order of the machine (`Endian`).
-/
namespace Verif.NetUtil
open Verif.Words (Endian htonl htons ntohs cpuToBe32)

/-- Belongs to the model of net/sk_utils.c:809-1236, net/route.c:327-371. -/
abbrev Bytes := Nat → BitVec 8

/-- load of the `k`-th 32-bit word of an object: s6_addr32_v [k] -/
def word (e : Endian) (a : Bytes) (k : Nat) : BitVec 32 :=
  match e with
  | .little => a (4 * k + 3) ++ a (4 * k + 2) ++ a (4 * k + 1) ++ a (4 * k)
  | .big => a (4 * k) ++ a (4 * k + 1) ++ a (4 * k + 2) ++ a (4 * k + 3)

/-- `memcmp (a, b, n) == 0`. Belongs to the model of net/sk_utils.c:809-1236, net/route.c:327-371. -/
def memEq (a b : Bytes) (n : Nat) : Bool := (List.range n).all fun i => decide (a i = b i)

/-- ipv6.h:94-100; true is a non-zero result -/
def maskedCmp (e : Endian) (a1 m a2 : Bytes) : Bool :=
  decide ((((word e a1 0 ^^^ word e a2 0) &&& word e m 0) ||| ((word e a1 1 ^^^ word e a2 1) &&& word e m 1) |||
    ((word e a1 2 ^^^ word e a2 2) &&& word e m 2) ||| ((word e a1 3 ^^^ word e a2 3) &&& word e m 3)) ≠ 0#32)

/-- the byte `0xff00 >> b` truncated to 8 bits, ipv6.h:111, 122 -/
def topMask (b : Nat) : BitVec 8 := ((0xff00#32) >>> b).truncate 8

/-- ipv6.h:102-112 ipv6_addr_prefix -/
def addrPrefix (addr : Bytes) (plen : Nat) : Bytes :=
  let o := plen >>> 3
  let b := plen &&& 7
  fun i => if i < o then addr i else if b ≠ 0 ∧ i = o then addr o &&& topMask b else 0#8

/-- ipv6.h:114-125 ipv6_addr_prefix_copy -/
def prefixCopy (addr pfx : Bytes) (plen : Nat) : Bytes :=
  let o := plen >>> 3
  let b := plen &&& 7
  fun i => if i < o then pfx i else if b ≠ 0 ∧ i = o then (addr o &&& ~~~(topMask b)) ||| (pfx o &&& topMask b) else addr i

/-- ipv6.h:139-145 -/
def addrEqual (e : Endian) (a1 a2 : Bytes) : Bool :=
  decide (((word e a1 0 ^^^ word e a2 0) ||| (word e a1 1 ^^^ word e a2 1) |||
    (word e a1 2 ^^^ word e a2 2) ||| (word e a1 3 ^^^ word e a2 3)) = 0#32)

/-- ipv6.h:147-164 ipv6_prefix_equal -/
def prefixEqual (e : Endian) (a1 a2 : Bytes) (prefixlen : Nat) : Bool :=
  let pdw := prefixlen >>> 5
  let pbi := prefixlen &&& 0x1f
  if pdw ≠ 0 ∧ ¬ memEq a1 a2 (pdw <<< 2) then false
  else if pbi ≠ 0 ∧ ((word e a1 pdw ^^^ word e a2 pdw) &&& htonl e (0xffffffff#32 <<< (32 - pbi))) ≠ 0#32 then false
  else true

/-- ipv6.h:166-169 -/
def isAny (e : Endian) (a : Bytes) : Bool :=
  decide ((word e a 0 ||| word e a 1 ||| word e a 2 ||| word e a 3) = 0#32)
/-- ipv6.h:171-175 -/
def isLoopback (e : Endian) (a : Bytes) : Bool :=
  decide ((word e a 0 ||| word e a 1 ||| word e a 2 ||| (word e a 3 ^^^ cpuToBe32 e 1#32)) = 0#32)
/-- ipv6.h:177-180 -/
def isV4Mapped (e : Endian) (a : Bytes) : Bool :=
  decide ((word e a 0 ||| word e a 1 ||| (word e a 2 ^^^ cpuToBe32 e 0x0000ffff#32)) = 0#32)
/-- ipv6.h:182-185 -/
def isNat64 (e : Endian) (a : Bytes) : Bool :=
  decide (((word e a 0 ^^^ cpuToBe32 e 0x0064ff9b#32) ||| word e a 1 ||| word e a 2) = 0#32)
/-- ipv6.h:191-194 -/
def isOrchid (e : Endian) (a : Bytes) : Bool :=
  decide ((word e a 0 &&& htonl e 0xfffffff0#32) = htonl e 0x20010010#32)
/-- ipv6.h:196-199 -/
def isMulticast (e : Endian) (a : Bytes) : Bool :=
  decide ((word e a 0 &&& htonl e 0xFF000000#32) = htonl e 0xFF000000#32)

/-! ### Address types, ipv6.h:28-55 -/
/-- A constant of the model of ipv6.h:28-55. -/
def T_UNICAST : BitVec 32 := 0x0001#32
/-- A constant of the model of ipv6.h:28-55. -/
def T_MULTICAST : BitVec 32 := 0x0002#32
/-- A constant of the model of ipv6.h:28-55. -/
def T_LOOPBACK : BitVec 32 := 0x0010#32
/-- A constant of the model of ipv6.h:28-55. -/
def T_LINKLOCAL : BitVec 32 := 0x0020#32
/-- A constant of the model of ipv6.h:28-55. -/
def T_SITELOCAL : BitVec 32 := 0x0040#32
/-- Belongs to the model of ipv6.h:28-55. -/
def T_COMPATv4 : BitVec 32 := 0x0080#32
/-- A constant of the model of ipv6.h:28-55. -/
def T_MAPPED : BitVec 32 := 0x1000#32
/-- ipv6.c:21 -/
def scopeType (scope : BitVec 32) : BitVec 32 := scope <<< 16

/-- ipv6.c:25-36 -/
def scope2type (scope : BitVec 32) : BitVec 32 :=
  if scope = 1#32 then scopeType 1#32 ||| T_LOOPBACK
  else if scope = 2#32 then scopeType 2#32 ||| T_LINKLOCAL
  else if scope = 5#32 then scopeType 5#32 ||| T_SITELOCAL
  else scopeType scope

/-- ipv6.c:38-78 -/
def addrType (e : Endian) (a : Bytes) : BitVec 32 :=
  let st := word e a 0
  if (st &&& htonl e 0xE0000000#32) ≠ htonl e 0#32 ∧ (st &&& htonl e 0xE0000000#32) ≠ htonl e 0xE0000000#32 then
    T_UNICAST ||| scopeType 0x0e#32
  else if (st &&& htonl e 0xFF000000#32) = htonl e 0xFF000000#32 then
    T_MULTICAST ||| scope2type ((a 1 &&& 0x0f#8).setWidth 32)
  else if (st &&& htonl e 0xFFC00000#32) = htonl e 0xFE800000#32 then
    T_LINKLOCAL ||| T_UNICAST ||| scopeType 2#32
  else if (st &&& htonl e 0xFFC00000#32) = htonl e 0xFEC00000#32 then
    T_SITELOCAL ||| T_UNICAST ||| scopeType 5#32
  else if (st &&& htonl e 0xFE000000#32) = htonl e 0xFC000000#32 then
    T_UNICAST ||| scopeType 0x0e#32
  else if (word e a 0 ||| word e a 1) = 0#32 then
    if word e a 2 = 0#32 then
      if word e a 3 = 0#32 then 0#32
      else if word e a 3 = htonl e 1#32 then T_LOOPBACK ||| T_UNICAST ||| scopeType 2#32
      else T_COMPATv4 ||| T_UNICAST ||| scopeType 0x0e#32
    else if word e a 2 = htonl e 0x0000ffff#32 then T_MAPPED ||| scopeType 0x0e#32
    else T_UNICAST ||| scopeType 0x0e#32
  else T_UNICAST ||| scopeType 0x0e#32

/-! ### Socket addresses and their mapping -/

/-- aosl_sk_addr_t (aosl_mpq_net.h:31-35) is a union of 28 bytes: family, port, the four bytes that are
    sin_addr resp. sin6_flowinfo, the sixteen bytes of sin6_addr (the first eight of which are sin_zero
    of an IPv4 address), and sin6_scope_id. -/
structure Sk where
  family : Nat
  port : BitVec 16
  lo : Bytes
  hi : Bytes
  scope : Bytes

/-- A constant of the model of ipv6.h:28-55. -/
def AF_UNSPEC : Nat := 0
/-- A constant of the model of ipv6.h:28-55. -/
def AF_INET : Nat := 2
/-- A constant of the model of ipv6.h:28-55. -/
def AF_INET6 : Nat := 10

/-- the queue's ipv6_prefix_96 (12 bytes), `none` for NULL or when the caller is not on a queue -/
abbrev Prefix := Option Bytes

/-- ipv6.c:90-98 -/
def nat64Prefix : Bytes := fun i => if i = 1 then 0x64#8 else if i = 2 then 0xff#8 else if i = 3 then 0x9b#8 else 0#8

/-- ipv6.c:100-117; always succeeds -/
def fromIpv4 (q : Prefix) (v4 : Sk) : Sk :=
  let pfx : Bytes := match q with
    | some p => p
    | none => nat64Prefix
  { family := AF_INET6, port := v4.port, lo := fun _ => 0#8,
    hi := fun i => if i < 12 then pfx i else v4.lo (i - 12), scope := fun _ => 0#8 }

/-- ipv6.c:119-126 -/
def v4Compatible (e : Endian) (q : Prefix) (a : Bytes) : Bool :=
  match q with
  | some p => prefixEqual e a p 96 || isV4Mapped e a || isNat64 e a
  | none => isV4Mapped e a || isNat64 e a

/-- ipv6.c:128-137 -/
def skV4Compatible (e : Endian) (q : Prefix) (s : Sk) : Bool :=
  if s.family = AF_INET then true
  else if s.family = AF_INET6 then v4Compatible e q s.hi
  else false

/-- ipv6.c:144-157; `none` is -1 (and the destination is not written), otherwise the new contents of
    the destination, of which only the sixteen bytes of a sockaddr_in are written. -/
def toIpv4 (e : Endian) (q : Prefix) (dst v6 : Sk) : Option Sk :=
  if skV4Compatible e q v6 = false then none
  else some { family := AF_INET, port := v6.port, lo := fun i => v6.hi (12 + i),
              hi := fun i => if i < 8 then 0#8 else dst.hi i, scope := dst.scope }

/-- ipv6.c:159-180; `a6 = none` is NULL, `mem` says whether the allocation succeeds. -/
def updatePrefix (e : Endian) (mem : Bool) (q : Prefix) (a6 : Option Bytes) : Prefix :=
  match a6 with
  | some a =>
    if isV4Mapped e a || isNat64 e a then q
    else match q with
      | none => if mem then some a else none
      | some _ => some a
  | none => none

/-- sk_utils.c:1214-1236 -/
def ipEqual (a1 a2 : Sk) : Bool :=
  if a1.family ≠ a2.family then false
  else if a1.family = AF_UNSPEC then true
  else if a1.family = AF_INET then memEq a1.lo a2.lo 4
  else if a1.family = AF_INET6 then memEq a1.hi a2.hi 16
  else false

/-- aosl_mpq_net.h aosl_ip_sk_t; -1 is the invalid fd (aosl_hal_types.h:37-40) -/
structure IpSk where
  v4 : Int
  v6 : Int
  deriving DecidableEq

/-- sk_utils.c:939-976, 1001-1038, 1076-1113: the common choice of socket and destination of
    aosl_mpq_ip_sk_connect, aosl_mpq_ip_sk_connect_on_q and aosl_ip_sk_sendto; `none` is EINVAL.
    `junk` is the uninitialised local variable `addr`. -/
def dispatch (e : Endian) (q : Prefix) (junk : Sk) (sk : IpSk) (dest : Sk) : Option (Int × Sk) :=
  if dest.family = AF_INET then
    if sk.v4 ≠ -1 then some (sk.v4, dest)
    else if sk.v6 ≠ -1 then some (sk.v6, fromIpv4 q dest)
    else none
  else if dest.family = AF_INET6 then
    if sk.v6 ≠ -1 then some (sk.v6, dest)
    else if sk.v4 ≠ -1 then
      match toIpv4 e q junk dest with
      | none => none
      | some d => some (sk.v4, d)
    else none
  else none

/-- sk_utils.c:809-829; `none` is EINVAL -/
def initWithPort (e : Endian) (old : Sk) (af : Nat) (port : BitVec 16) : Option Sk :=
  if af = AF_INET then
    some { old with family := af, port := htons e port, lo := fun _ => 0#8, hi := fun i => if i < 8 then 0#8 else old.hi i }
  else if af = AF_INET6 then
    some { family := af, port := htons e port, lo := fun _ => 0#8, hi := fun _ => 0#8, scope := fun _ => 0#8 }
  else none

/-- sk_utils.c:1198-1212 -/
def skPort (e : Endian) (s : Sk) : BitVec 16 :=
  if s.family = AF_INET ∨ s.family = AF_INET6 then ntohs e s.port else 0#16

/-- sk_utils.c:872-888: the checks of aosl_set_socket_dscp; the value handed to the HAL, `none` is EINVAL -/
def dscpArg (af : Int) (dscp : Int) : Option (BitVec 8) :=
  if af ≠ 2 ∧ af ≠ 10 then none
  else if dscp < 0 ∨ dscp > 63 then none
  else some (BitVec.ofInt 8 dscp)

/-- route.c:345-370 aosl_ip_sk_create, after the validity of the default routes has been read:
    `sock4`, `sock6` are the results of the HAL's socket calls (-1: failure). -/
def ipSkCreate (v4valid v6valid : Bool) (sock4 sock6 : Int) : Int × IpSk :=
  let sk : IpSk := ⟨-1, -1⟩
  let (sk, created) := if v4valid then (if sock4 ≠ -1 then ({ sk with v4 := sock4 }, 1) else (sk, 0)) else (sk, (0 : Int))
  let (sk, created) := if v6valid then (if sock6 ≠ -1 then ({ sk with v6 := sock6 }, created + 1) else (sk, created)) else (sk, created)
  (if created > 0 then created else -1, sk)

/-- sk_utils.c:896-926 aosl_ip_sk_bind; `bind` is the HAL's bind (true: success). Returns the result and
    the list of binds performed. -/
def ipSkBind (bind : Int → Sk → Bool) (sk : IpSk) (v4 v6 : Sk) : Int × List (Int × Sk) :=
  let (b, l) := if sk.v4 ≠ -1 ∧ v4.family ≠ AF_UNSPEC then ((if bind sk.v4 v4 then 1 else (0 : Int)), [(sk.v4, v4)]) else (0, [])
  let (b, l) := if sk.v6 ≠ -1 ∧ v6.family ≠ AF_UNSPEC then ((if bind sk.v6 v6 then b + 1 else b), l ++ [(sk.v6, v6)]) else (b, l)
  (if b > 0 then b else -1, l)

/-- sk_utils.c:1123-1136 aosl_ip_sk_close: the fds closed and the structure afterwards -/
def ipSkClose (sk : IpSk) : List Int × IpSk :=
  let (c, s) := if sk.v4 ≠ -1 then ([sk.v4], { sk with v4 := -1 }) else ([], sk)
  if s.v6 ≠ -1 then (c ++ [s.v6], { s with v6 := -1 }) else (c, s)

end Verif.NetUtil
