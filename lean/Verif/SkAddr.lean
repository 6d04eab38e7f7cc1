import Verif.Inet

/-!
# Socket addresses as bytes: from text, to text, port, comparison

Models aosl_ip_sk_addr_from_string, aosl_ip_sk_addr_str, aosl_ip_sk_addr_port and aosl_sk_addr_ip_equal (net/sk_utils.c:1176-1286) on the bytes of an aosl_sk_addr_t
(include/api/aosl_socket.h:21-52, include/api/aosl_mpq_net.h:31-35).  The text functions are `Inet`'s.  `be`: a big-endian host; `v6`: built with CONFIG_AOSL_IPV6.
-/

namespace Verif.SkAddr

open Verif.Inet

/-- platform/include/hal/aosl_hal_socket.h:24-26 -/
def AF_UNSPEC : Nat := 0
/-- A constant of the model of net/sk_utils.c:1176-1286, include/api/aosl_socket.h:21-52, include/api/aosl_mpq_net.h:31-35. -/
def AF_INET : Nat := 2
/-- A constant of the model of net/sk_utils.c:1176-1286, include/api/aosl_socket.h:21-52, include/api/aosl_mpq_net.h:31-35. -/
def AF_INET6 : Nat := 10

/-- The bytes of a uint16_t. -/
def u16 (be : Bool) (v : Nat) : List Nat := if be then [v / 256, v % 256] else [v % 256, v / 256]

/-- The uint16_t at two bytes. -/
def get16 (be : Bool) (m : List Nat) (off : Nat) : Nat :=
  if be then m.getD off 0 * 256 + m.getD (off + 1) 0 else m.getD (off + 1) 0 * 256 + m.getD off 0

/-- `memcpy (m + off, bs)`. Belongs to the model of net/sk_utils.c:1176-1286, include/api/aosl_socket.h:21-52, include/api/aosl_mpq_net.h:31-35. -/
def put (m : List Nat) (off : Nat) (bs : List Nat) : List Nat := m.take off ++ bs ++ m.drop (off + bs.length)

/-- aosl_htons and aosl_ntohs (sk_utils.c:39-50): `aosl_cpu_to_be16` -/
def hton16 (be : Bool) (v : Nat) : Nat := if be then v else v % 256 * 256 + v / 256 % 256

/-- sizeof (aosl_sockaddr_in_t), sizeof (aosl_sockaddr_in6_t). Belongs to the model of net/sk_utils.c:1176-1286, include/api/aosl_socket.h:21-52, include/api/aosl_mpq_net.h:31-35. -/
def szIn : Nat := 16
/-- Belongs to the model of net/sk_utils.c:1176-1286, include/api/aosl_socket.h:21-52, include/api/aosl_mpq_net.h:31-35. -/
def szIn6 : Nat := 28

/-- sk_utils.c:1256-1286 on the bytes at `sk_addr`; the text is parsed into the address itself, which k_inet_pton writes only when it succeeds (inet.c:210-292). -/
def fromString (v6 be : Bool) (m : List Nat) (s : List Char) (port : Nat) : Nat × List Nat :=
  if v6 ∧ ':' ∈ s then
    let m1 := put m 0 (List.replicate szIn6 0)
    match pton .inet6 s with
    | .one b =>
      let m2 := put m1 8 b
      let m3 := put m2 0 (u16 be AF_INET6)
      (szIn6, put m3 2 (u16 be (hton16 be port)))
    | _ => (0, m1)
  else
    let m1 := put m 0 (List.replicate szIn 0)
    match pton .inet s with
    | .one b =>
      let m2 := put m1 4 b
      let m3 := put m2 0 (u16 be AF_INET)
      (szIn, put m3 2 (u16 be (hton16 be port)))
    | _ => (0, m1)

/-- `addr->sa.sa_family`. Belongs to the model of net/sk_utils.c:1176-1286, include/api/aosl_socket.h:21-52, include/api/aosl_mpq_net.h:31-35. -/
def family (be : Bool) (m : List Nat) : Nat := get16 be m 0

/-- sk_utils.c:1195-1209 -/
def portOf (v6 be : Bool) (m : List Nat) : Nat :=
  if family be m = AF_INET then hton16 be (get16 be m 2)
  else if v6 ∧ family be m = AF_INET6 then hton16 be (get16 be m 2)
  else 0

/-- sk_utils.c:1176-1193: what is written to `addr_buf`; `none`: nothing.  Other families: `snprintf`, here without the cut at the end of the buffer. -/
def str (v6 be : Bool) (m : List Nat) (bufLen : BitVec 64) : Option (List Char) :=
  if family be m = AF_INET then addrStr .inet ((m.drop 4).take 4) bufLen
  else if v6 ∧ family be m = AF_INET6 then addrStr .inet6 ((m.drop 8).take 16) bufLen
  else some ("<Unknown af ".toList ++ Nat.toDigits 10 (family be m) ++ ['>'])

/-- sk_utils.c:1211-1234 -/
def ipEqual (v6 be : Bool) (a b : List Nat) : Bool :=
  if family be a ≠ family be b then false
  else if family be a = AF_UNSPEC then true
  else if family be a = AF_INET then (a.drop 4).take 4 = (b.drop 4).take 4
  else if v6 ∧ family be a = AF_INET6 then (a.drop 8).take 16 = (b.drop 8).take 16
  else false

end Verif.SkAddr
