/-
  Model of the sockets of the ports other than linux: resolving host names, binding, socket options, results of failing calls (platform/src/*/aosl_hal_socket.c, aosl_hal_errno.c).
  The system underneath (lwIP, Winsock, SCI, Darwin) is a parameter: what it answers.
-/
namespace Verif.PortSock

/-! ## Host names -/

/-- The family of an address the system found. Belongs to the model of spreadtrum-8910ff/aosl_hal_socket.c:12-633, spreadtrum-t117/aosl_hal_errno.c:4-25. -/
inductive Fam where
  | v4
  | v6
  | other
deriving DecidableEq, Repr

/-- One address the system found: 4 bytes for `v4`, 16 for `v6`. -/
structure Res where
  fam : Fam
  bytes : List Nat
deriving DecidableEq, Repr

/-- aosl_sockaddr_t (platform/include/hal/aosl_hal_socket.h:42-51): `word` is the union of sin_addr and sin6_flowinfo. -/
structure Ent where
  fam : Nat
  port : Nat
  word : List Nat
  addr : List Nat
  scope : List Nat
deriving DecidableEq, Repr

/-- AOSL_AF_INET. Belongs to the model of spreadtrum-8910ff/aosl_hal_socket.c:12-633, spreadtrum-t117/aosl_hal_errno.c:4-25. -/
def afInet : Nat := 2

/-- AOSL_AF_INET6. Belongs to the model of spreadtrum-8910ff/aosl_hal_socket.c:12-633, spreadtrum-t117/aosl_hal_errno.c:4-25. -/
def afInet6 : Nat := 10

/-- How a port turns a list of results into an array. `ipv6`: the build has LWIP_IPV6. -/
inductive NamePort where
  /-- esp32/aosl_hal_socket.c:399-438, harmony/aosl_hal_socket.c:403-442, windows/aosl_hal_socket.c:470-512 -/
  | addrinfo
  /-- bk725x/aosl_hal_socket.c:379-433, ipro7/aosl_hal_socket.c:579-633, tw82x/aosl_hal_socket.c:374-428 -/
  | addrinfoTmp (ipv6 : Bool)
  /-- asr1606/aosl_hal_socket.c:322-355 -/
  | asr1606 (ipv6 : Bool)
  /-- rtl8713/aosl_hal_socket.c:372-403 -/
  | rtl8713 (ipv6 : Bool)
  /-- xr872/aosl_hal_socket.c:396-418 -/
  | xr872
  /-- ac791n/aosl_hal_socket.c:218-232; `hlen`: h_length -/
  | ac791n (hlen : Nat)
  /-- spreadtrum-8910ff/aosl_hal_socket.c:295-329, spreadtrum-t117/aosl_hal_socket.c:295-350 -/
  | spreadtrum
deriving DecidableEq, Repr

/-- The IPv4 branch of conv_addr_to_aosl (bk725x/aosl_hal_socket.c:80-86 and the same in the others) on a result without a service, so port 0. -/
def setV4 (r : Res) (e : Ent) : Ent := { e with fam := afInet, port := 0, word := r.bytes }

/-- The IPv6 branch of conv_addr_to_aosl; flow and scope of a resolved address are 0. Belongs to the model of spreadtrum-8910ff/aosl_hal_socket.c:12-633, spreadtrum-t117/aosl_hal_errno.c:4-25. -/
def setV6 (r : Res) (_e : Ent) : Ent := { fam := afInet6, port := 0, word := [0, 0, 0, 0], addr := r.bytes, scope := [0, 0, 0, 0] }

/-- sizeof (struct sockaddr): the temporary of the `addrinfoTmp` ports (bk725x/aosl_hal_socket.c:384) -/
def tmpSize : Nat := 16

/-- sizeof (struct sockaddr_in) and sizeof (struct sockaddr_in6) (bk725x/aosl_hal_socket.c:410) -/
def skSize : Fam → Nat
  | .v6 => 28
  | _ => 16

/-- What the body of the loop does with one result and the slot it would go to: `none`: memory outside an object is written; `some none`: the result is passed over; `some (some e)`: the slot becomes `e` and is counted. Belongs to the model of spreadtrum-8910ff/aosl_hal_socket.c:12-633, spreadtrum-t117/aosl_hal_errno.c:4-25. -/
def put : NamePort → Res → Ent → Option (Option Ent)
  | .addrinfo, r, e =>
    match r.fam with
    | .v4 => some (some (setV4 r e))
    | .v6 => some (some (setV6 r e))
    | .other => some none
  | .addrinfoTmp ipv6, r, e =>
    match r.fam with
    | .other => some none
    | .v4 => if tmpSize < skSize .v4 then none else some (some (setV4 r e))
    | .v6 => if ipv6 then (if tmpSize < skSize .v6 then none else some (some (setV6 r e))) else some none
  | .asr1606 ipv6, r, e =>
    match r.fam with
    | .v4 => some (some (setV4 r e))
    | .v6 => if ipv6 then some (some { e with fam := afInet6, port := 0, addr := r.bytes }) else some none
    | .other => some none
  | .rtl8713 ipv6, r, e =>
    match r.fam with
    | .v4 => some (some (setV4 r e))
    | .v6 => some (some (if ipv6 then setV6 r e else e))
    | .other => some (some e)
  | .xr872, r, e => some (some (setV4 { r with bytes := r.bytes.take 4 } e))
  | .ac791n hlen, r, e =>
    if 24 < hlen then none
    else
      let m := r.bytes.take hlen ++ (e.word ++ e.addr ++ e.scope).drop hlen
      some (some { e with fam := afInet, word := m.take 4, addr := (m.drop 4).take 16, scope := (m.drop 20).take 4 })
  | .spreadtrum, r, e =>
    match r.fam with
    | .v4 => some (some (setV4 r e))
    | .v6 => some (some (setV6 r e))
    | .other => some none

/-- The loop over the results, bk725x/aosl_hal_socket.c:405-425 and the same in the others: `n` results are in the array. -/
def fill (p : NamePort) : List Res → Nat → List Ent → Option (List Ent × Nat)
  | [], n, a => some (a, n)
  | r :: rs, n, a =>
    match a[n]? with
    | none => some (a, n)
    | some e =>
      match put p r e with
      | none => none
      | some none => fill p rs n a
      | some (some e') => fill p rs (n + 1) (a.set n e')

/-- aosl_hal_gethostbyname with an array of `arr.length` entries; a port that looks at the type of the answer as a whole gives up on another type (ac791n/aosl_hal_socket.c:221). `none`: memory outside an object is written. -/
def resolve (p : NamePort) (rs : List Res) (arr : List Ent) : Option (List Ent × Nat) :=
  match p with
  | .ac791n _ => if rs.all (fun r => r.fam = .v4) then fill p rs 0 arr else some (arr, 0)
  | _ => fill p rs 0 arr

/-! ## Binding and options -/

/-- The ports. Belongs to the model of spreadtrum-8910ff/aosl_hal_socket.c:12-633, spreadtrum-t117/aosl_hal_errno.c:4-25. -/
inductive Port where
  | ac791n | asr1606 | bk725x | darwin | esp32 | harmony | ipro7 | rtl8713 | spreadtrum | tw82x | windows | xr872
deriving DecidableEq, Repr

/-- An address to bind to: family, address as a number in host order, port. Belongs to the model of spreadtrum-8910ff/aosl_hal_socket.c:12-633, spreadtrum-t117/aosl_hal_errno.c:4-25. -/
structure Adr where
  fam : Fam
  ip : Nat
  port : Nat
deriving DecidableEq, Repr

/-- What the system knows of a socket. Belongs to the model of spreadtrum-8910ff/aosl_hal_socket.c:12-633, spreadtrum-t117/aosl_hal_errno.c:4-25. -/
structure Sk where
  fam : Fam
  bound : Option Adr := none
  dev : Option (List Nat) := none
  tos : Nat := 0
deriving DecidableEq, Repr

/-- conv_domain_to_os and socket: the family of the socket made (xr872/aosl_hal_socket.c:12-25; ac791n/aosl_hal_socket.c:12-20 and the same in the others). -/
def sockFam : Port → Fam → Fam
  | .xr872, .v6 => .v4
  | _, f => f

/-- The address handed to the system by aosl_hal_sk_bind: ac791n/aosl_hal_socket.c:41-51, 75-84 converts IPv4 only and leaves zeros (family `other`, AF_UNSPEC) otherwise; ipro7/aosl_hal_socket.c:143-172, 258 replaces 127.x.x.x by 0.0.0.0. -/
def bindArg : Port → Adr → Adr
  | .ac791n, a => if a.fam = .v4 then a else { fam := .other, ip := 0, port := 0 }
  | .ipro7, a => if a.fam = .v4 ∧ a.ip / 2 ^ 24 = 127 then { a with ip := 0 } else a
  | _, a => a

/-- The result of a call of the system that did not succeed. Belongs to the model of spreadtrum-8910ff/aosl_hal_socket.c:12-633, spreadtrum-t117/aosl_hal_errno.c:4-25. -/
def failed : Int := -2000

/-- aosl_hal_sk_bind; `ok`: the system accepts the address it is given. Belongs to the model of spreadtrum-8910ff/aosl_hal_socket.c:12-633, spreadtrum-t117/aosl_hal_errno.c:4-25. -/
def bindTo (p : Port) (ok : Bool) (s : Sk) (a : Adr) : Int × Sk :=
  if ok then (0, { s with bound := some (bindArg p a) }) else (failed, s)

/-- aosl_hal_sk_bind_device: ac791n/aosl_hal_socket.c:86-90, spreadtrum-t117/aosl_hal_socket.c:279-284, windows/aosl_hal_socket.c:177-181 and xr872/aosl_hal_socket.c:155-170 do nothing; harmony/aosl_hal_socket.c:152-161 refuses; the others ask the system. -/
def bindDevice (p : Port) (ok : Bool) (s : Sk) (name : List Nat) : Int × Sk :=
  match p with
  | .ac791n | .spreadtrum | .windows | .xr872 => (0, s)
  | .harmony => (failed, s)
  | _ => if ok then (0, { s with dev := some name }) else (failed, s)

/-- aosl_set_socket_dscp (net/sk_utils.c:872-888) over aosl_hal_sk_set_dscp: darwin/aosl_hal_socket.c:180-207, harmony/aosl_hal_socket.c:163-190, windows/aosl_hal_socket.c:183-212 set it; esp32/aosl_hal_socket.c:160-185 for IPv4 only; the others do nothing. The first component: -1 with an error code, or 0. -/
def setDscp (p : Port) (ok : Bool) (s : Sk) (af : Nat) (dscp : Int) : Int × Sk :=
  if af ≠ afInet ∧ af ≠ afInet6 then (-1, s)
  else if dscp < 0 ∨ dscp > 63 then (-1, s)
  else
    let set : Int × Sk := if ok then (0, { s with tos := dscp.toNat * 2 ^ 2 }) else (-1, s)
    match p with
    | .darwin | .harmony | .windows => set
    | .esp32 => if af = afInet then set else (-1, s)
    | _ => (0, s)

/-! ## Results of failing calls -/

/-- Why a call of the system failed. Belongs to the model of spreadtrum-8910ff/aosl_hal_socket.c:12-633, spreadtrum-t117/aosl_hal_errno.c:4-25. -/
inductive Why where
  | again
  | intr
  | inProgress
  | none
  | otherErr
deriving DecidableEq, Repr

/-- aosl_hal_errno_convert: spreadtrum-t117/aosl_hal_errno.c:5-16; ac791n/aosl_hal_errno.c:4-18 and the same in the others; windows/aosl_hal_errno.c:6-25. -/
def convert (p : Port) (w : Why) : Int :=
  match p, w with
  | _, .none => 0
  | _, .again => -2001
  | .spreadtrum, _ => -1
  | _, .intr => -2002
  | _, .inProgress => -2003
  | _, .otherErr => -2000

/-- aosl_hal_sk_connect on a non-blocking socket: windows/aosl_hal_socket.c:249-279 knows its own code for "in progress" (there `again`); the others convert. `none`: the system connected. -/
def connect (p : Port) (w : Option Why) : Int :=
  match w with
  | none => 0
  | some .again => if p = .windows then -2003 else convert p .again
  | some w => convert p w

/-- How the system says that a non-blocking connect is under way: Winsock with WSAEWOULDBLOCK, the others with EINPROGRESS. Belongs to the model of spreadtrum-8910ff/aosl_hal_socket.c:12-633, spreadtrum-t117/aosl_hal_errno.c:4-25. -/
def underWay : Port → Why
  | .windows => .again
  | _ => .inProgress

/-- What aosl_mpq_connect makes of it (net/sk_utils.c:210-229): 0: connected; AOSL_HAL_RET_EINPROGRESS: wait for the outcome; otherwise the call fails. -/
inductive Conn where
  | connected
  | waits
  | fails
deriving DecidableEq, Repr

/-- __do_connect, net/sk_utils.c:210-229 -/
def mpqConnect (p : Port) (w : Option Why) : Conn :=
  let err := connect p w
  if err < 0 then (if err = -2003 then .waits else .fails) else .connected

end Verif.PortSock
