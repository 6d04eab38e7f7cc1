import Verif.PortSock
/-
  Model of listening sockets, of the addresses that go to and come from the system, and of aosl_get_sockaddr on the ports other than linux
  (platform/src/*/aosl_hal_socket.c, net/sk_utils.c:84-127, kernel/iofd.c:74-200).
  The system underneath is a parameter: what it answers.
-/
namespace Verif.PortIo
open Verif.PortSock (Port Why convert)

/-! ## Accepting -/

/-- What the system answers to one accept: a new connection or a reason. Belongs to the model of net/sk_utils.c:84-127, kernel/iofd.c:74-200. -/
inductive Ans where
  | conn (fd : Nat)
  | fail (w : Why)
deriving DecidableEq, Repr

/-- aosl_hal_sk_accept: ac791n/aosl_hal_socket.c:99-111, asr1606/aosl_hal_socket.c:174-190 and tw82x/aosl_hal_socket.c:188-209 return the converted reason; bk725x/aosl_hal_socket.c:193-214, darwin/aosl_hal_socket.c:223-240, esp32/aosl_hal_socket.c:201-218, harmony/aosl_hal_socket.c:206-223, ipro7/aosl_hal_socket.c:326-347, rtl8713/aosl_hal_socket.c:198-219, spreadtrum-t117/aosl_hal_socket.c:159-172, windows/aosl_hal_socket.c:229-248 and xr872/aosl_hal_socket.c:194-215 return AOSL_INVALID_FD, which is -1. -/
def halAccept (p : Port) : Ans → Int
  | .conn fd => (fd : Int)
  | .fail w =>
    match p with
    | .ac791n | .asr1606 | .tw82x => convert p w
    | _ => -1

/-- __default_accept, net/sk_utils.c:112-127: only AOSL_INVALID_FD is a failure, and its code is AOSL_HAL_RET_EHAL. -/
def defaultAccept (p : Port) (a : Ans) : Except Int Int :=
  let newsk := halAccept p a
  if newsk = -1 then .error (-2000) else .ok newsk

/-- Where the pass over a listening socket is. `given`: the descriptors handed to the application so far. Belongs to the model of net/sk_utils.c:84-127, kernel/iofd.c:74-200. -/
inductive Pass where
  /-- still in the loop -/
  | going (given : List Int)
  /-- the application closed the listening socket in its callback -/
  | closed (given : List Int)
  /-- the application was told the code and the listening socket was closed -/
  | told (given : List Int) (code : Int)
  /-- left with the listening socket open, waiting for the next event -/
  | waits (given : List Int)
deriving DecidableEq, Repr

/-- __iofd_read_data (kernel/iofd.c:74-200) of a listening socket (no packet check, no post): `os n` is the answer to the n-th accept, `closes` says whether the callback closes the socket when it has been given this list, `k` calls were made. Simplified: the buffer holds exactly one aosl_accept_data_t, so each accept is handed over before the next. -/
def pass (p : Port) (os : Nat → Ans) (closes : List Int → Bool) : Nat → Nat → List Int → Pass
  | 0, _, given => .going given
  | fuel + 1, k, given =>
    match defaultAccept p (os k) with
    | .error e => if e = -2001 then .waits given else .told given e
    | .ok fd =>
      let given' := given ++ [fd]
      if closes given' then .closed given' else pass p os closes fuel (k + 1) given'

/-- The descriptors handed over so far. Belongs to the model of net/sk_utils.c:84-127, kernel/iofd.c:74-200. -/
def Pass.given : Pass → List Int
  | .going l => l
  | .closed l => l
  | .told l _ => l
  | .waits l => l

/-! ## Addresses -/

/-- aosl_sockaddr_t (platform/include/hal/aosl_hal_socket.h:42-51); `word` is the union of sin_addr and sin6_flowinfo. -/
structure SA where
  fam : Nat
  port : BitVec 16
  word : BitVec 32
  addr : List (BitVec 8)
  scope : BitVec 32
deriving DecidableEq, Repr

/-- The address of the system, by field. The number of its family is its own; 0 stands for AF_UNSPEC, `sysInet` and `sysInet6` for the others. Belongs to the model of net/sk_utils.c:84-127, kernel/iofd.c:74-200. -/
structure OsA where
  fam : Nat
  port : BitVec 16
  word : BitVec 32
  addr : List (BitVec 8)
  scope : BitVec 32
deriving DecidableEq, Repr

/-- AOSL_AF_INET. Belongs to the model of net/sk_utils.c:84-127, kernel/iofd.c:74-200. -/
def afInet : Nat := 2

/-- AOSL_AF_INET6. Belongs to the model of net/sk_utils.c:84-127, kernel/iofd.c:74-200. -/
def afInet6 : Nat := 10

/-- AF_INET of the system. Belongs to the model of net/sk_utils.c:84-127, kernel/iofd.c:74-200. -/
def sysInet : Nat := 2

/-- AF_INET6 of the system; its value differs between systems, only that it is neither AF_INET nor AF_UNSPEC matters. Belongs to the model of net/sk_utils.c:84-127, kernel/iofd.c:74-200. -/
def sysInet6 : Nat := 23

/-- `com_addr = {0}`. Belongs to the model of net/sk_utils.c:84-127, kernel/iofd.c:74-200. -/
def osZero : OsA := ⟨0, 0, 0, List.replicate 16 0, 0⟩

/-- Whether the port converts IPv6 addresses; `ipv6`: the build has LWIP_IPV6 (asr1606, bk725x, ipro7, rtl8713, tw82x and xr872 look at it). -/
def knowsV6 (p : Port) (ipv6 : Bool) : Bool :=
  match p with
  | .ac791n => false
  | .asr1606 | .bk725x | .ipro7 | .rtl8713 | .tw82x | .xr872 => ipv6
  | _ => true

/-- conv_addr_to_os into the zeroed local: ac791n/aosl_hal_socket.c:41-51, asr1606/aosl_hal_socket.c:50-73 (the scope is left out), bk725x/aosl_hal_socket.c:49-73, esp32/aosl_hal_socket.c:53-75, ipro7/aosl_hal_socket.c:103-140, rtl8713/aosl_hal_socket.c:51-78, windows/aosl_hal_socket.c:77-101, xr872/aosl_hal_socket.c:53-77, conv_addr_to_sci spreadtrum-t117/aosl_hal_socket.c:57-85. -/
def toOs (p : Port) (ipv6 : Bool) (a : SA) : OsA :=
  if a.fam = afInet then { osZero with fam := sysInet, port := a.port, word := a.word }
  else if a.fam = afInet6 ∧ knowsV6 p ipv6 = true then
    { fam := sysInet6, port := a.port, word := a.word, addr := a.addr, scope := if p = .asr1606 then 0 else a.scope }
  else osZero

/-- conv_domain_to_os of the destination's family: xr872/aosl_hal_socket.c:12-25 answers AF_INET for IPv6; the others as asr1606/aosl_hal_socket.c:10-22. -/
def domain (p : Port) (f : Nat) : Nat :=
  if f = afInet then sysInet
  else if f = afInet6 then (if p = .xr872 then sysInet else sysInet6)
  else 0

/-- get_addrlen (asr1606/aosl_hal_socket.c:104-116, windows/aosl_hal_socket.c:66-75, xr872/aosl_hal_socket.c:108-121 and the others): 16 and 28 are the sizes of sockaddr_in and sockaddr_in6. -/
def addrLen (p : Port) (ipv6 : Bool) (af : Nat) : Int :=
  if af = sysInet then 16 else if af = sysInet6 ∧ knowsV6 p ipv6 = true then 28 else -1

/-- The length handed over with the address: ac791n/aosl_hal_socket.c:119, 149 always sizeof (struct sockaddr_in); asr1606/aosl_hal_socket.c:242 and ipro7/aosl_hal_socket.c:478 look at the family of the converted address; spreadtrum-t117/aosl_hal_socket.c:117-126 knows no error; the others look at conv_domain_to_os of the family given. -/
def lenOf (p : Port) (ipv6 : Bool) (a : SA) : Int :=
  match p with
  | .ac791n => 16
  | .asr1606 | .ipro7 => addrLen p ipv6 (toOs p ipv6 a).fam
  | .spreadtrum => if a.fam = afInet6 then 28 else 16
  | _ => addrLen p ipv6 (domain p a.fam)

/-- What aosl_hal_sk_connect and aosl_hal_sk_sendto hand to the system: bk725x/aosl_hal_socket.c:216-240, 272-295 and the same in the others; ipro7/aosl_hal_socket.c:349-400, 442-495 gives up (`none`) on an address it does not convert. -/
def handed (p : Port) (ipv6 : Bool) (a : SA) : Option (OsA × Int) :=
  if p = .ipro7 ∧ ¬ (a.fam = afInet ∨ (a.fam = afInet6 ∧ ipv6 = true)) then none
  else some (toOs p ipv6 a, lenOf p ipv6 a)

/-- conv_addr_to_aosl: ac791n/aosl_hal_socket.c:53-62, asr1606/aosl_hal_socket.c:75-102 (the scope is left as it was), bk725x/aosl_hal_socket.c:75-105, esp32/aosl_hal_socket.c:77-102, windows/aosl_hal_socket.c:103-131 (zeroes first), spreadtrum-t117/aosl_hal_socket.c:88-114 (zeroes first, always), xr872/aosl_hal_socket.c:79-107. `old`: what the caller's structure held. -/
def toAosl (p : Port) (ipv6 : Bool) (o : OsA) (old : SA) : SA :=
  let zero : SA := ⟨0, 0, 0, List.replicate 16 0, 0⟩
  let base := if p = .windows ∨ p = .spreadtrum then zero else old
  if o.fam = sysInet then { base with fam := afInet, port := o.port, word := o.word }
  else if o.fam = sysInet6 ∧ knowsV6 p ipv6 = true then
    { fam := afInet6, port := o.port, word := o.word, addr := o.addr, scope := if p = .asr1606 then base.scope else o.scope }
  else if p = .spreadtrum then zero else old

/-! ## aosl_get_sockaddr -/

/-- A network interface. Belongs to the model of net/sk_utils.c:84-127, kernel/iofd.c:74-200. -/
structure NetIf where
  name : String
  v4 : List (BitVec 32)
  loop : Bool := false
  up : Bool := true
  running : Bool := true
  /-- esp_netif_get_route_prio -/
  prio : Int := 0
deriving DecidableEq, Repr

/-- The interfaces, in the order of the system, the default one and the Wi-Fi one. Belongs to the model of net/sk_utils.c:84-127, kernel/iofd.c:74-200. -/
structure Net where
  ifs : List NetIf
  dflt : Option NetIf := none
  wifi : Option NetIf := none
deriving DecidableEq, Repr

/-- The address of an interface of lwIP: one, 0 when there is none. Belongs to the model of net/sk_utils.c:84-127, kernel/iofd.c:74-200. -/
def lwipAddr (i : NetIf) : BitVec 32 := (i.v4.head?).getD 0

/-- The loop of esp32/aosl_hal_socket.c:360-366. -/
def lowest : List NetIf → Int → Option NetIf → Option NetIf
  | [], _, b => b
  | i :: r, m, b => if i.prio < m then lowest r i.prio (some i) else lowest r m b

/-- INT_MAX. Belongs to the model of net/sk_utils.c:84-127, kernel/iofd.c:74-200. -/
def intMax : Int := 2147483647

/-- aosl_hal_sk_get_local_ip: ac791n/aosl_hal_socket.c:191-202, darwin/aosl_hal_socket.c:371-404, esp32/aosl_hal_socket.c:353-385, harmony/aosl_hal_socket.c:354-389, rtl8713/aosl_hal_socket.c:342-354, windows/aosl_hal_socket.c:395-449, xr872/aosl_hal_socket.c:364-378; asr1606/aosl_hal_socket.c:298-304, bk725x, ipro7, tw82x and spreadtrum-t117 always fail. Simplified: asking the system for the list of interfaces succeeds. -/
def localIp (p : Port) (n : Net) : Option (BitVec 32) :=
  match p with
  | .asr1606 | .bk725x | .ipro7 | .tw82x | .spreadtrum => none
  | .darwin => ((n.ifs.filter (fun i => !i.loop && (i.name.startsWith "en" || i.name.startsWith "pdp_ip"))).flatMap NetIf.v4).head?
  | .harmony => ((n.ifs.filter (fun i => !i.loop && i.up && i.running)).flatMap NetIf.v4).head?
  | .windows => ((n.ifs.filter (fun i => !i.loop && i.up)).flatMap NetIf.v4).head?
  | .rtl8713 | .xr872 =>
    match n.dflt with
    | some i => if i.up then some (lwipAddr i) else none
    | none => none
  | .esp32 =>
    match lowest n.ifs intMax none with
    | some i => some (lwipAddr i)
    | none => match n.wifi with
      | some i => some (lwipAddr i)
      | none => (n.ifs.head?).map lwipAddr
  | .ac791n =>
    match n.wifi with
    | some i => if lwipAddr i = 0 then none else some (lwipAddr i)
    | none => none

/-- aosl_get_sockaddr, net/sk_utils.c:84-102: `sockname` is what getsockname answered (`none`: it failed). Only family, port and address are kept. -/
def getSockaddr (p : Port) (ipv6 : Bool) (sockname : Option OsA) (n : Net) : Option (Nat × BitVec 16 × BitVec 32) :=
  match sockname with
  | none => none
  | some o =>
    let s := toAosl p ipv6 o ⟨0, 0, 0, List.replicate 16 0, 0⟩
    match localIp p n with
    | none => none
    | some ip => if afInet ≠ s.fam then none else some (afInet, s.port, ip)

end Verif.PortIo
