import Verif.IoRead
import Verif.IoWrite
import Verif.Lifecycle
import Verif.FdTab
import Verif.Inet
import Verif.Tls

/-!
# The boundary to the platform: error translation, socket addresses, resolver, device binding

Models platform/src/linux/aosl_hal_errno.c, include/kernel/err.h:52-75, include/api/aosl_errno.h,
aosl_strerror (lib/errno.c:78-194), the address conversions of platform/src/linux/aosl_hal_socket.c
and the calls built on them in net/sk_utils.c.
-/
namespace Verif.Hal

/-! ### Error codes -/

/-- AOSL_EBASE, aosl_errno.h:15 -/
def base : Nat := 1000

/-- the public error codes, include/api/aosl_errno.h:18-133, as the offsets the header adds to AOSL_EBASE.
    (AOSL_EWOULDBLOCK is AOSL_EBASE + AOSL_EAGAIN, i.e. the base is added twice.) -/
def offsets : List (String × Nat) := [
  ("EPERM", 1),
  ("ENOENT", 2),
  ("ESRCH", 3),
  ("EINTR", 4),
  ("EIO", 5),
  ("ENXIO", 6),
  ("E2BIG", 7),
  ("ENOEXEC", 8),
  ("EBADF", 9),
  ("ECHILD", 10),
  ("EAGAIN", 11),
  ("ENOMEM", 12),
  ("EACCES", 13),
  ("EFAULT", 14),
  ("ENOTBLK", 15),
  ("EBUSY", 16),
  ("EEXIST", 17),
  ("EXDEV", 18),
  ("ENODEV", 19),
  ("ENOTDIR", 20),
  ("EISDIR", 21),
  ("EINVAL", 22),
  ("ENFILE", 23),
  ("EMFILE", 24),
  ("ENOTTY", 25),
  ("ETXTBSY", 26),
  ("EFBIG", 27),
  ("ENOSPC", 28),
  ("ESPIPE", 29),
  ("EROFS", 30),
  ("EMLINK", 31),
  ("EPIPE", 32),
  ("EDOM", 33),
  ("ERANGE", 34),
  ("EDEADLK", 35),
  ("ENAMETOOLONG", 36),
  ("ENOLCK", 37),
  ("ENOSYS", 38),
  ("ENOTEMPTY", 39),
  ("ELOOP", 40),
  ("EWOULDBLOCK", base + 11),
  ("ENOMSG", 42),
  ("EIDRM", 43),
  ("ECHRNG", 44),
  ("EL2NSYNC", 45),
  ("EL3HLT", 46),
  ("EL3RST", 47),
  ("ELNRNG", 48),
  ("EUNATCH", 49),
  ("ENONET", 64),
  ("ENOPKG", 65),
  ("EREMOTE", 66),
  ("ENOLINK", 67),
  ("EADV", 68),
  ("ESRMNT", 69),
  ("ECOMM", 70),
  ("EPROTO", 71),
  ("EMULTIHOP", 72),
  ("EDOTDOT", 73),
  ("EBADMSG", 74),
  ("EOVERFLOW", 75),
  ("ENOTUNIQ", 76),
  ("EBADFD", 77),
  ("EREMCHG", 78),
  ("ELIBACC", 79),
  ("ELIBBAD", 80),
  ("ELIBSCN", 81),
  ("ELIBMAX", 82),
  ("ELIBEXEC", 83),
  ("EILSEQ", 84),
  ("ERESTART", 85),
  ("ESTRPIPE", 86),
  ("EUSERS", 87),
  ("ENOTSOCK", 88),
  ("EDESTADDRREQ", 89),
  ("EMSGSIZE", 90),
  ("EPROTOTYPE", 91),
  ("ENOPROTOOPT", 92),
  ("EPROTONOSUPPORT", 93),
  ("ESOCKTNOSUPPORT", 94),
  ("EOPNOTSUPP", 95),
  ("EPFNOSUPPORT", 96),
  ("EAFNOSUPPORT", 97),
  ("EADDRINUSE", 98),
  ("EADDRNOTAVAIL", 99),
  ("ENETDOWN", 100),
  ("ENETUNREACH", 101),
  ("ENETRESET", 102),
  ("ECONNABORTED", 103),
  ("ECONNRESET", 104),
  ("ENOBUFS", 105),
  ("EISCONN", 106),
  ("ENOTCONN", 107),
  ("ESHUTDOWN", 108),
  ("ETOOMANYREFS", 109),
  ("ETIMEDOUT", 110),
  ("ECONNREFUSED", 111),
  ("EHOSTDOWN", 112),
  ("EHOSTUNREACH", 113),
  ("EALREADY", 114),
  ("EINPROGRESS", 115),
  ("ESTALE", 116),
  ("EUCLEAN", 117),
  ("ENOTNAM", 118),
  ("ENAVAIL", 119),
  ("EISNAM", 120),
  ("EREMOTEIO", 121),
  ("EHAL", 1000)]

/-- the `case` labels of aosl_strerror with their strings, lib/errno.c:78-194, in order -/
def strCases : List (String × String) := [
  ("EPERM", "EPERM"),
  ("ENOENT", "ENOENT"),
  ("ESRCH", "ESRCH"),
  ("EINTR", "EINTR"),
  ("EIO", "EIO"),
  ("ENXIO", "ENXIO"),
  ("E2BIG", "E2BIG"),
  ("ENOEXEC", "ENOEXEC"),
  ("EBADF", "EBADF"),
  ("ECHILD", "ECHILD"),
  ("EAGAIN", "EAGAIN"),
  ("ENOMEM", "ENOMEM"),
  ("EACCES", "EACCES"),
  ("EFAULT", "EFAULT"),
  ("ENOTBLK", "ENOTBLK"),
  ("EBUSY", "EBUSY"),
  ("EEXIST", "EEXIST"),
  ("EXDEV", "EXDEV"),
  ("ENODEV", "ENODEV"),
  ("ENOTDIR", "ENOTDIR"),
  ("EISDIR", "EISDIR"),
  ("EINVAL", "EINVAL"),
  ("ENFILE", "ENFILE"),
  ("EMFILE", "EMFILE"),
  ("ENOTTY", "ENOTTY"),
  ("ETXTBSY", "ETXTBSY"),
  ("EFBIG", "EFBIG"),
  ("ENOSPC", "ENOSPC"),
  ("ESPIPE", "ESPIPE"),
  ("EROFS", "EROFS"),
  ("EMLINK", "EMLINK"),
  ("EPIPE", "EPIPE"),
  ("EDOM", "EDOM"),
  ("ERANGE", "ERANGE"),
  ("EDEADLK", "EDEADLK"),
  ("ENAMETOOLONG", "ENAMETOOLONG"),
  ("ENOLCK", "ENOLCK"),
  ("ENOSYS", "ENOSYS"),
  ("ENOTEMPTY", "ENOTEMPTY"),
  ("ELOOP", "ELOOP"),
  ("ENOMSG", "ENOMSG"),
  ("EIDRM", "EIDRM"),
  ("ECHRNG", "ECHRNG"),
  ("EL2NSYNC", "EL2NSYNC"),
  ("EL3HLT", "EL3HLT"),
  ("EL3RST", "EL3RST"),
  ("ELNRNG", "ELNRNG"),
  ("EUNATCH", "EUNATCH"),
  ("ENONET", "ENONET"),
  ("ENOPKG", "ENOPKG"),
  ("EREMOTE", "EREMOTE"),
  ("ENOLINK", "ENOLINK"),
  ("EADV", "EADV"),
  ("ESRMNT", "ESRMNT"),
  ("ECOMM", "ECOMM"),
  ("EPROTO", "EPROTO"),
  ("EMULTIHOP", "EMULTIHOP"),
  ("EDOTDOT", "EDOTDOT"),
  ("EBADMSG", "EBADMSG"),
  ("EOVERFLOW", "EOVERFLOW"),
  ("ENOTUNIQ", "ENOTUNIQ"),
  ("EBADFD", "EBADFD"),
  ("EREMCHG", "EREMCHG"),
  ("ELIBACC", "ELIBACC"),
  ("ELIBBAD", "ELIBBAD"),
  ("ELIBSCN", "ELIBSCN"),
  ("ELIBMAX", "ELIBMAX"),
  ("ELIBEXEC", "ELIBEXEC"),
  ("EILSEQ", "EILSEQ"),
  ("ERESTART", "ERESTART"),
  ("ESTRPIPE", "ESTRPIPE"),
  ("EUSERS", "EUSERS"),
  ("ENOTSOCK", "ENOTSOCK"),
  ("EDESTADDRREQ", "EDESTADDRREQ"),
  ("EMSGSIZE", "EMSGSIZE"),
  ("EPROTOTYPE", "EPROTOTYPE"),
  ("ENOPROTOOPT", "ENOPROTOOPT"),
  ("EPROTONOSUPPORT", "EPROTONOSUPPORT"),
  ("ESOCKTNOSUPPORT", "ESOCKTNOSUPPORT"),
  ("EOPNOTSUPP", "EOPNOTSUPP"),
  ("EPFNOSUPPORT", "EPFNOSUPPORT"),
  ("EAFNOSUPPORT", "EAFNOSUPPORT"),
  ("EADDRINUSE", "EADDRINUSE"),
  ("EADDRNOTAVAIL", "EADDRNOTAVAIL"),
  ("ENETDOWN", "ENETDOWN"),
  ("ENETUNREACH", "ENETUNREACH"),
  ("ENETRESET", "ENETRESET"),
  ("ECONNABORTED", "ECONNABORTED"),
  ("ECONNRESET", "ECONNRESET"),
  ("ENOBUFS", "ENOBUFS"),
  ("EISCONN", "EISCONN"),
  ("ENOTCONN", "ENOTCONN"),
  ("ESHUTDOWN", "ESHUTDOWN"),
  ("ETOOMANYREFS", "ETOOMANYREFS"),
  ("ETIMEDOUT", "ETIMEDOUT"),
  ("ECONNREFUSED", "ECONNREFUSED"),
  ("EHOSTDOWN", "EHOSTDOWN"),
  ("EHOSTUNREACH", "EHOSTUNREACH"),
  ("EALREADY", "EALREADY"),
  ("EINPROGRESS", "EINPROGRESS"),
  ("ESTALE", "ESTALE"),
  ("EUCLEAN", "EUCLEAN"),
  ("ENOTNAM", "ENOTNAM"),
  ("ENAVAIL", "ENAVAIL"),
  ("EISNAM", "EISNAM"),
  ("EREMOTEIO", "EREMOTEIO")]

/-- the value of a public code, by name. Belongs to the model of include/kernel/err.h:52-75, lib/errno.c:78-194. -/
def code (n : String) : Option Nat := (offsets.find? fun p => p.1 == n).map fun p => base + p.2

/-- aosl_strerror, lib/errno.c:78-194: the first case label with that value -/
def strerror (n : Int) : String :=
  match strCases.find? fun c => decide ((code c.1).map Int.ofNat = some n) with
  | some c => c.2
  | none => "Unknown Error"

/-- aosl_hal_errno_convert, aosl_hal_errno.c:4-17, with the Linux values EAGAIN 11, EINTR 4,
    EINPROGRESS 115 and the AOSL_HAL_RET_ values of aosl_hal_errno.h:16-21 -/
def convert (os : Nat) : Int :=
  if os = 0 then 0 else if os = 11 then -2001 else if os = 4 then -2002 else if os = 115 then -2003 else -2000

/-- aosl_hal_set_error, include/kernel/err.h:52-75: (value returned, value stored in aosl_errno if any) -/
def setError (err : Int) : Int × Option Int :=
  if err < 0 then
    let newerr : Int := if err = -2002 then 1004 else if err = -2001 then 1011 else if err = -2003 then 1115 else 2000
    (-newerr, some newerr)
  else (0, none)

/-- outcome of an OS call: a value ≥ 0 or failure with an errno. Belongs to the model of include/kernel/err.h:52-75, lib/errno.c:78-194. -/
inductive Os where
  | ok (v : Nat)
  | err (errno : Nat)

/-- the shape shared by aosl_hal_sk_send/recv/sendto/recvfrom/read/write (aosl_hal_socket.c:258-373) -/
def hal : Os → Int
  | .ok v => v
  | .err e => convert e

/-- `err = hal; if (err < 0) return aosl_hal_set_error (err); return err;`
    __default_recv, __default_send, __default_recvfrom, __default_sendto (sk_utils.c:129-208) and
    the default read/write of iofd.c; second component: aosl_errno afterwards -/
def dflt (r : Os) (errno : Int) : Int × Int :=
  if hal r < 0 then ((setError (hal r)).1, (setError (hal r)).2.getD errno) else (hal r, errno)

/-- __do_connect up to the registration's write path (sk_utils.c:210-222): `none` is "keep waiting",
    `some 0` connected at once, `some e` failed -/
def doConnect (r : Os) : Option Int :=
  let e : Int := match r with | .ok _ => 0 | .err e => convert e
  if e < 0 then (if e = -2003 then none else some (setError e).1) else some 0

/-! ### Socket addresses -/

/-- A constant of the model of include/kernel/err.h:52-75, lib/errno.c:78-194. -/
abbrev B16 := Fin 16 → BitVec 8

/-- aosl_sockaddr_t, aosl_hal_socket.h:43-52; `w` is the union of sin_addr and sin6_flowinfo.
    Port and addresses are in network order, as stored. -/
structure SA where
  fam : Nat
  port : BitVec 16
  w : BitVec 32
  a6 : B16
  scope : BitVec 32

/-- the 28 bytes of the local `struct sockaddr_in6 com_addr`, seen by field; the first 16 are also a
    `struct sockaddr_in` (w is then sin_addr, the first half of a6 is padding) -/
structure OsA where
  fam : Nat
  port : BitVec 16
  w : BitVec 32
  a6 : B16
  scope : BitVec 32

/-- `com_addr = {0}`. Belongs to the model of include/kernel/err.h:52-75, lib/errno.c:78-194. -/
def OsA.zero : OsA := ⟨0, 0, 0, fun _ => 0, 0⟩

/-- conv_domain_to_os, aosl_hal_socket.c:18-30 (the numbers agree on Linux) -/
def domain (f : Nat) : Nat := if f = 2 then 2 else if f = 10 then 10 else 0

/-- conv_addr_to_os, aosl_hal_socket.c:58-80 -/
def toOs (a : SA) (o : OsA) : OsA :=
  if a.fam = 2 then { o with fam := 2, port := a.port, w := a.w }
  else if a.fam = 10 then { o with fam := 10, port := a.port, w := a.w, a6 := a.a6, scope := a.scope }
  else o

/-- conv_addr_to_aosl, aosl_hal_socket.c:82-107 -/
def toAosl (o : OsA) (a : SA) : SA :=
  if o.fam = 2 then { a with fam := 2, port := o.port, w := o.w }
  else if o.fam = 10 then { a with fam := 10, port := o.port, w := o.w, a6 := o.a6, scope := o.scope }
  else a

/-- get_addrlen, aosl_hal_socket.c:109-119 -/
def addrLen (af : Nat) : Int := if af = 2 then 16 else if af = 10 then 28 else -1

/-- what aosl_hal_sk_bind / _connect / _sendto hand to the system call (aosl_hal_socket.c:133-150,
    228-248, 288-309) -/
def passed (a : SA) : OsA × Int := (toOs a OsA.zero, addrLen (domain a.fam))

/-- what aosl_hal_sk_accept / _recvfrom / _get_sockname store, given what the kernel wrote over the
    zeroed local (aosl_hal_socket.c:208-226, 311-330, 418-428) -/
def received (kernelWrote : OsA → OsA) (old : SA) : SA := toAosl (kernelWrote OsA.zero) old

/-! ### Resolver -/

/-- one struct addrinfo: ai_family, and ai_addr unless it is NULL or ai_addrlen is 0. Belongs to the model of include/kernel/err.h:52-75, lib/errno.c:78-194. -/
structure Ai where
  fam : Nat
  addr : Option OsA

/-- aosl_hal_gethostbyname, aosl_hal_socket.c:430-475: the loop over the results of getaddrinfo
    (`none`: it failed). State: the caller's array and `count`. -/
def resolveLoop (n : Int) : List Ai → Nat → (Nat → SA) → Nat × (Nat → SA)
  | [], c, m => (c, m)
  | ai :: r, c, m =>
    if (c : Int) < n then
      match ai.addr with
      | none => resolveLoop n r c m
      | some o =>
        if ai.fam = 2 ∨ ai.fam = 10 then resolveLoop n r (c + 1) (fun i => if i = c then toAosl o (m c) else m i)
        else resolveLoop n r c m
    else (c, m)

/-- Belongs to the model of include/kernel/err.h:52-75, lib/errno.c:78-194. -/
def resolve (res : Option (List Ai)) (addrs : Nat → SA) (n : Int) : Nat × (Nat → SA) :=
  match res with
  | none => (0, addrs)
  | some l => resolveLoop n l 0 addrs

/-! ### aosl_get_sockaddr -/

/-- aosl_get_sockaddr, sk_utils.c:84-102, with aosl_hal_sk_get_local_ip (aosl_hal_socket.c:383-416):
    `sockname` is what getsockname wrote (`none`: it failed), `defIp` the IPv4 address of the interface
    of the default IPv4 route (`none`: no such route or address) -/
def getSockaddr (sockname : Option OsA) (defIp : Option (BitVec 32)) (addr : SA) : Int × SA :=
  match sockname with
  | none => (-1, addr)
  | some o =>
    let s := toAosl o ⟨0, 0, 0, fun _ => 0, 0⟩
    match defIp with
    | none => (-1, addr)
    | some ip =>
      let a := { addr with fam := 2, w := ip }
      if a.fam ≠ s.fam then (-1, a) else (0, { a with port := s.port })

/-! ### aosl_bind_device -/

/-- the name in ifr.ifr_name: strncpy of IFNAMSIZ - 1 = 15 bytes into a zeroed array
    (aosl_hal_socket.c:152-157) -/
def ifrName (name : List Char) : List Char := name.take 15

/-- the kernel's SO_BINDTODEVICE: looks the name up, `dev` says which devices exist; 19 is ENODEV -/
def kernelBind (dev : List Char → Bool) (n : List Char) : Os × Option (List Char) :=
  if dev n then (.ok 0, some n) else (.err 19, none)

/-- aosl_bind_device, sk_utils.c:859-870: result and the device the socket is bound to afterwards -/
def bindDevice (dev : List Char → Bool) (name : Option (List Char)) : Int × Option (List Char) :=
  match name with
  | none => (-1, none)
  | some n =>
    if n = [] then (-1, none)
    else
      let r := kernelBind dev (ifrName n)
      let e : Int := match r.1 with | .ok _ => 0 | .err e => convert e
      if e < 0 then ((setError e).1, r.2) else (0, r.2)

end Verif.Hal
