import Verif.Route
import Verif.Netifs
/-!
  Byte-level model of kernel/rt_monitor.c: how the netlink messages of the Linux kernel are read.
  `Mem` is the memory starting at the receive buffer (16384 bytes); every read the code makes in it is
  logged as (offset, size), so that "no read outside the data received" is a statement about the log.
  Little-endian host, 64-bit (rt_monitor.c is compiled on Linux only).
-/
namespace Verif.Netlink
open Verif.Route (Entry)

/-- Belongs to the model of rt_monitor.c:33-538, aosl_socket.h:39-52. -/
abbrev Byte := BitVec 8
/-- Belongs to the model of rt_monitor.c:33-538, aosl_socket.h:39-52. -/
abbrev Mem := Nat → Byte
/-- a read: offset and size. Belongs to the model of rt_monitor.c:33-538, aosl_socket.h:39-52. -/
abbrev Acc := Nat × Nat

/-- Belongs to the model of rt_monitor.c:33-538, aosl_socket.h:39-52. -/
def u16 (b : Mem) (o : Nat) : Nat := (b o).toNat + 256 * (b (o + 1)).toNat
/-- Belongs to the model of rt_monitor.c:33-538, aosl_socket.h:39-52. -/
def u32 (b : Mem) (o : Nat) : Nat := u16 b o + 65536 * u16 b (o + 2)
/-- NLMSG_ALIGN, RTA_ALIGN (linux/netlink.h, linux/rtnetlink.h). Belongs to the model of rt_monitor.c:33-538, aosl_socket.h:39-52. -/
def align4 (n : Nat) : Nat := (n + 3) / 4 * 4

/-- NLMSG_ALIGN as the code computes it, in 32-bit unsigned arithmetic -/
def alignU32 (n : Nat) : Nat := align4 (n % 2 ^ 32) % 2 ^ 32

/-- rt_monitor.c:238, 253: sizeof buf -/
def BUF : Nat := 16384

/-- the local array `rtas` of parse_rtattrs' caller (an attribute is its offset) and the reads made. Belongs to the model of rt_monitor.c:33-538, aosl_socket.h:39-52. -/
structure PSt where
  rtas : Nat → Option Nat
  log : List Acc

/-- rt_monitor.c:42-48: the loop of parse_rtattrs, RTA_OK and RTA_NEXT. `len` is an int. `fuel` bounds the
    number of iterations; `C148_attributes` shows that `len + 1` is always enough. -/
def parseLoop (b : Mem) (cnt : Nat) : Nat → Nat → Int → PSt → PSt
  | 0, _, _, s => s
  | k + 1, off, len, s =>
    if len < 4 then s
    else
      let rl := u16 b off
      if rl < 4 ∨ (rl : Int) > len then { s with log := s.log ++ [(off, 2)] }
      else
        let ty := u16 b (off + 2)
        let rtas := if ty < cnt ∧ (s.rtas ty).isNone then fun t => if t = ty then some off else s.rtas t else s.rtas
        parseLoop b cnt k (off + align4 rl) (len - align4 rl) ⟨rtas, s.log ++ [(off, 2), (off + 2, 2)]⟩

/-- rt_monitor.c:35-49 parse_rtattrs -/
def parseRtattrs (b : Mem) (off : Nat) (len : Int) (cnt : Nat) : PSt :=
  parseLoop b cnt (len.toNat + 1) off len ⟨fun _ => none, []⟩

/-! ### The default route -/

/-- A constant of the model of rt_monitor.c:33-538, aosl_socket.h:39-52. -/
def RTA_OIF : Nat := 4
/-- A constant of the model of rt_monitor.c:33-538, aosl_socket.h:39-52. -/
def RTA_GATEWAY : Nat := 5
/-- A constant of the model of rt_monitor.c:33-538, aosl_socket.h:39-52. -/
def RTA_PRIORITY : Nat := 6
/-- __RTA_MAX; any value above RTA_PRIORITY gives the same model. Belongs to the model of rt_monitor.c:33-538, aosl_socket.h:39-52. -/
def RTA_CNT : Nat := 31
/-- A constant of the model of rt_monitor.c:33-538, aosl_socket.h:39-52. -/
def NLMSG_ERROR : Nat := 2
/-- A constant of the model of rt_monitor.c:33-538, aosl_socket.h:39-52. -/
def NLMSG_DONE : Nat := 3
/-- A constant of the model of rt_monitor.c:33-538, aosl_socket.h:39-52. -/
def RTM_NEWROUTE : Nat := 24
/-- A constant of the model of rt_monitor.c:33-538, aosl_socket.h:39-52. -/
def RTM_DELROUTE : Nat := 25

/-- the local variables of __af_get_default_rt (rt_monitor.c:211-227): def_rt_cnt, min_metric, and the two
    pointers into `buf` -/
structure G where
  cnt : Nat
  min : Nat
  oif : Option Nat
  gw : Option Nat
  /-- the reads made in the current datagram -/
  log : List Acc
  /-- the reads made beyond the datagram being looked at, with its size -/
  out : List (Acc × Nat)

/-- The state at the beginning, in the model of rt_monitor.c:33-538, aosl_socket.h:39-52. -/
def G.init : G := ⟨0, 0xffffffff, none, none, [], []⟩

/-- the reads of a log that go beyond the `n` bytes received. Belongs to the model of rt_monitor.c:33-538, aosl_socket.h:39-52. -/
def beyond (n : Nat) (l : List Acc) : List (Acc × Nat) :=
  (l.filter fun a => n < a.1 + a.2).map fun a => (a, n)

/-- rt_monitor.c:280-347: a RTM_NEWROUTE message at offset `off` with nlmsg_len `nl`. The payload length is
    computed in 32-bit unsigned arithmetic and passed as an int. -/
def routeMsg (b : Mem) (off nl : Nat) (g : G) : G :=
  let g := { g with log := g.log ++ [(off + 23, 1)] }
  if (b (off + 23)).toNat ≠ 1 then g
  else
    let g := { g with log := g.log ++ [(off + 16, 1)] }
    if (b (off + 16)).toNat ≠ 2 ∧ (b (off + 16)).toNat ≠ 10 then g
    else
      let g := { g with log := g.log ++ [(off + 17, 1)] }
      if (b (off + 17)).toNat ≠ 0 then g
      else
        let p := parseRtattrs b (off + 28) ((nl : Int) - 28) RTA_CNT
        let g := { g with log := g.log ++ p.log }
        match p.rtas RTA_OIF with
        | none => g
        | some o =>
          let g := { g with cnt := g.cnt + 1 }
          match p.rtas RTA_PRIORITY with
          | some q =>
            let g := { g with log := g.log ++ [(q + 4, 4)] }
            let pri := u32 b (q + 4)
            if pri < g.min then { g with min := pri, oif := some o, gw := p.rtas RTA_GATEWAY } else g
          | none =>
            if g.oif.isNone ∧ g.gw.isNone then { g with oif := some o, gw := p.rtas RTA_GATEWAY } else g

/-- rt_monitor.c:258-348: the messages of one datagram, NLMSG_OK and NLMSG_NEXT with the signed 64-bit
    `err`. The second component: the loop was left for `__done`. -/
def msgLoop (b : Mem) : Nat → Nat → Int → G → G × Bool
  | 0, _, _, g => (g, false)
  | k + 1, off, len, g =>
    if len < 16 then (g, false)
    else
      let nl := u32 b off
      let g := { g with log := g.log ++ [(off, 4)] }
      if nl < 16 ∨ (nl : Int) > len then (g, false)
      else
        let ty := u16 b (off + 4)
        let g := { g with log := g.log ++ [(off + 4, 2)] }
        if ty = NLMSG_DONE ∨ ty = NLMSG_ERROR then (g, true)
        else
          let g := if ty = RTM_NEWROUTE then routeMsg b off nl g else g
          msgLoop b k (off + align4 nl) (len - align4 nl) g

/-- what `recv` leaves in the buffer: the datagram (cut to the buffer size) over the old contents. Belongs to the model of rt_monitor.c:33-538, aosl_socket.h:39-52. -/
def fill (b : Mem) (d : List Byte) : Mem :=
  fun i => if i < min d.length BUF then d.getD i 0 else b i

/-- rt_monitor.c:251-349: the receive loop. Each element is what one `recv` returns: a datagram, or `none`
    for an error. The outcome is the final buffer and variables, or `none` if `recv` blocks. -/
def recvLoop : List (Option (List Byte)) → Mem → G → Option (Mem × G)
  | [], _, _ => none
  | none :: _, b, g => some (b, g)
  | some d :: ds, b, g =>
    if d.length = 0 then some (b, g)
    else
      let b := fill b d
      let n := min d.length BUF
      let r := msgLoop b (n + 1) 0 n g
      let g := { r.1 with log := [], out := r.1.out ++ beyond n r.1.log }
      if r.2 then some (b, g) else recvLoop ds b g

/-- What __af_get_default_rt stores (rt_monitor.c:352-414): the interface index, the number of default
    routes, the number of bytes copied to the gateway address and the bytes (none: no gateway attribute). -/
structure DefRoute where
  family : Nat
  oif : Nat
  cnt : Nat
  gw : Option (List Byte)
  /-- the reads made at the end, after the last datagram -/
  log : List Acc
  /-- the reads made beyond the datagram being looked at -/
  out : List (Acc × Nat)

/-- rt_monitor.c:388, RTA_PAYLOAD: (int)rta_len - 4 in 64-bit unsigned arithmetic -/
def rtaPayload (b : Mem) (o : Nat) : Nat := (u16 b o + (2 ^ 64 - 4)) % 2 ^ 64

/-- rt_monitor.c:351-414: the pointers are dereferenced in what is NOW in the buffer. The lookup of the
    interface (netif_by_index, C71) is left to the caller. The family stored is the one of the request
    (the `rtm` of the loop is another variable, of an inner scope). -/
def finish (af : Nat) (b : Mem) (g : G) : Option DefRoute :=
  match g.oif with
  | none => none
  | some o =>
    some { family := af
           oif := u32 b (o + 4)
           cnt := if g.cnt > 2 then 2 else g.cnt
           gw := g.gw.map fun q => (List.range (rtaPayload b q)).map fun i => b (q + 4 + i)
           log := (o + 4, 4) :: (match g.gw with
                                 | some q => [(q, 2), (q + 4, rtaPayload b q)]
                                 | none => [])
           out := g.out }

/-- rt_monitor.c:207-419 __af_get_default_rt after the request has been sent; `junk` is the uninitialised
    buffer. Outer `none`: it blocks in `recv`; inner `none`: it returns 0. -/
def getDefaultRt (af : Nat) (junk : Mem) (rs : List (Option (List Byte))) : Option (Option DefRoute) :=
  (recvLoop rs junk G.init).map fun r => finish af r.1 r.2

/-- room from the gateway's address to the end of the structure: sin_addr at 4, sin6_addr at 8, of 28
    (aosl_socket.h:39-52, aosl_route.h:37-43: `gw` is the last member) -/
def gwRoom (af : Nat) : Nat := if af = 2 then 24 else 20

/-! ### The interfaces -/

/-- A constant of the model of rt_monitor.c:33-538, aosl_socket.h:39-52. -/
def RTM_NEWLINK : Nat := 16
/-- A constant of the model of rt_monitor.c:33-538, aosl_socket.h:39-52. -/
def RTM_DELLINK : Nat := 17
/-- A constant of the model of rt_monitor.c:33-538, aosl_socket.h:39-52. -/
def IFLA_IFNAME : Nat := 3
/-- __IFLA_MAX; any value above IFLA_IFNAME gives the same model. Belongs to the model of rt_monitor.c:33-538, aosl_socket.h:39-52. -/
def IFLA_CNT : Nat := 60

/-- the bytes of the C string at `off`; `fuel` bounds the search for the NUL (64 KiB) -/
def cstr (b : Mem) : Nat → Nat → List Char
  | 0, _ => []
  | k + 1, off => if (b off).toNat = 0 then [] else Char.ofNat (b off).toNat :: cstr b k (off + 1)

/-- a C int read from memory. Belongs to the model of rt_monitor.c:33-538, aosl_socket.h:39-52. -/
def i32 (b : Mem) (o : Nat) : Int := if u32 b o < 2 ^ 31 then u32 b o else (u32 b o : Int) - 2 ^ 32

/-- Data of the model of rt_monitor.c:33-538, aosl_socket.h:39-52. -/
structure L where
  nifs : Netifs.State
  /-- the reads made in the current datagram, except in interface names -/
  log : List Acc
  /-- the reads made in interface names in the current datagram -/
  names : List Acc
  /-- of both, those made beyond the datagram being looked at, with its size -/
  out : List (Acc × Nat)
  nameOut : List (Acc × Nat)

/-- The state at the beginning, in the model of rt_monitor.c:33-538, aosl_socket.h:39-52. -/
def L.init (s : Netifs.State) : L := ⟨s, [], [], [], []⟩
/-- bookkeeping at the end of a datagram of `n` bytes. Belongs to the model of rt_monitor.c:33-538, aosl_socket.h:39-52. -/
def L.next (n : Nat) (l : L) : L :=
  { l with log := [], names := [], out := l.out ++ beyond n l.log, nameOut := l.nameOut ++ beyond n l.names }

/-- rt_monitor.c:76-103 update_ifinfos for a message at `off` with nlmsg_len `nl` and type `ty`;
    `memOk`: the allocator succeeds -/
def updateIfinfos (b : Mem) (memOk : Bool) (off nl ty : Nat) (l : L) : L :=
  if ty ≠ RTM_NEWLINK ∧ ty ≠ RTM_DELLINK then l
  else if nl < 32 then l
  else
    let l := { l with log := l.log ++ [(off + 20, 4)] }
    if ty = RTM_DELLINK then { l with nifs := (Netifs.update l.nifs memOk true (i32 b (off + 20)) none 0).1 }
    else
      let p := parseRtattrs b (off + 32) ((nl : Int) - 32) IFLA_CNT
      let l := { l with log := l.log ++ p.log ++ [(off + 18, 2)] }
      let name := (p.rtas IFLA_IFNAME).map fun o => cstr b 65536 (o + 4)
      { l with nifs := (Netifs.update l.nifs memOk false (i32 b (off + 20)) name (u16 b (off + 18))).1
               names := l.names ++ (match p.rtas IFLA_IFNAME with
                                    | some o => [(o + 4, (cstr b 65536 (o + 4)).length + 1)]
                                    | none => []) }

/-- rt_monitor.c:141-166: the loop of afnetlink_init_netifs over one datagram. Second component: the result
    it returns with, if it returns (0: DONE; the negated error number of the kernel; -EMSGSIZE). -/
def linkLoop (b : Mem) (memOk : Bool) : Nat → Nat → Int → L → L × Option Int
  | 0, _, _, l => (l, none)
  | k + 1, off, len, l =>
    if len < 16 then (l, none)
    else
      let nl := u32 b off
      let l := { l with log := l.log ++ [(off, 4)] }
      if nl < 16 ∨ (nl : Int) > len then (l, none)
      else
        let ty := u16 b (off + 4)
        let l := { l with log := l.log ++ [(off + 4, 2)] }
        if ty = NLMSG_DONE then (l, some 0)
        else if ty = NLMSG_ERROR then
          if nl < 36 then (l, some (-1090))
          else ({ l with log := l.log ++ [(off + 16, 4)] }, some (-(i32 b (off + 16))))
        else linkLoop b memOk k (off + align4 nl) (len - align4 nl) (updateIfinfos b memOk off nl ty l)

/-- rt_monitor.c:132-171: the receive loop and the result; `none`: blocked in `recv` -/
def initNetifs (memOk : Bool) : List (Option (List Byte)) → Mem → L → Option (L × Int)
  | [], _, _ => none
  | none :: _, _, l => some (l, -1)
  | some d :: ds, b, l =>
    if d.length = 0 then some (l, -1)
    else
      let b := fill b d
      let n := min d.length BUF
      let r := linkLoop b memOk (n + 1) 0 n l
      if r.2.isSome then some (r.1.next n, r.2.getD 0) else initNetifs memOk ds b (r.1.next n)

/-! ### Notifications -/

/-- one notification datagram: the interface table and the number of route checks made. Belongs to the model of rt_monitor.c:33-538, aosl_socket.h:39-52. -/
structure N where
  l : L
  checks : Nat

/-- rt_monitor.c:442-461 __process_rtmsg: the message type is read before NLMSG_OK, and the length is
    unsigned. `fuel` bounds the number of iterations considered. -/
def processLoop (b : Mem) (memOk : Bool) : Nat → Nat → BitVec 64 → N → N
  | 0, _, _, s => s
  | k + 1, off, len, s =>
    let rd (s : N) (a : Acc) : N := { s with l := { s.l with log := s.l.log ++ [a] } }
    let s := rd s (off + 4, 2)
    let ty := u16 b (off + 4)
    if ty = NLMSG_DONE then s
    else if len.toNat < 16 then s
    else
      let s := rd s (off, 4)
      let nl := u32 b off
      if nl < 16 ∨ nl > len.toNat then s
      else
        let s :=
          if ty = RTM_NEWLINK ∨ ty = RTM_DELLINK then { s with l := updateIfinfos b memOk off nl ty s.l }
          else if ty = RTM_NEWROUTE ∨ ty = RTM_DELROUTE then { s with checks := s.checks + 1 }
          else s
        processLoop b memOk k (off + alignU32 nl) (len - BitVec.ofNat 64 (alignU32 nl)) s

/-- rt_monitor.c:463-470 __on_af_netlink_data: the datagram `d` is at the start of the read buffer of 16384
    bytes, whose rest has old contents -/
def onData (junk : Mem) (memOk : Bool) (fuel : Nat) (d : List Byte) (nifs : Netifs.State) : N :=
  if 0 < d.length then
    processLoop (fill junk d) memOk fuel 0 (BitVec.ofNat 64 (min d.length BUF)) ⟨L.init nifs, 0⟩
  else ⟨L.init nifs, 0⟩

/-! ### The monitoring socket -/

/-- rt_monitor.c:33 af_netlink_fd; the monitor's descriptors that are open, those registered with the queue,
    and the number of `close` calls made on a descriptor number that is not one of them (and may by then
    belong to something else) -/
structure Mon where
  stored : Option Nat
  live : List Nat
  registered : Option Nat
  stray : Nat

/-- The state at the beginning, in the model of rt_monitor.c:33-538, aosl_socket.h:39-52. -/
def Mon.init : Mon := ⟨none, [], none, 0⟩

/-- Belongs to the model of rt_monitor.c:33-538, aosl_socket.h:39-52. -/
def Mon.close (m : Mon) (fd : Nat) : Mon :=
  if fd ∈ m.live then { m with live := m.live.erase fd } else { m with stray := m.stray + 1 }

/-- rt_monitor.c:474-506 __create_and_attach_af_netlink: `fd` is the descriptor the system returns (none:
    `socket` fails), then whether `bind` and the registration with the queue succeed -/
def Mon.create (m : Mon) (fd : Option Nat) (bindOk addOk : Bool) : Mon × Bool :=
  match fd with
  | none => (m, false)
  | some fd =>
    let m := { m with live := fd :: m.live }
    if bindOk = false then ((m.close fd).close fd, false)
    else if addOk = false then ((m.close fd).close fd, false)
    else ({ m with stored := some fd, registered := some fd }, true)

inductive MonOp where
  /-- os_subscribe_net_events (rt_monitor.c:520-530) -/
  | subscribe (fd : Option Nat) (bindOk addOk : Bool)
  /-- an error event on the registered socket (rt_monitor.c:508-518) -/
  | error (fd : Option Nat) (bindOk addOk : Bool)
  /-- os_unsubscribe_net_events (rt_monitor.c:532-538) -/
  | unsubscribe

/-- aosl_close takes the descriptor off the queue and closes it. Belongs to the model of rt_monitor.c:33-538, aosl_socket.h:39-52. -/
def Mon.step (m : Mon) : MonOp → Mon
  | .subscribe fd b a => (m.create fd b a).1
  | .error fd b a =>
    match m.registered with
    | none => m
    | some r => (({ m with registered := none }.close r).create fd b a).1
  | .unsubscribe =>
    match m.stored with
    | none => m
    | some f =>
      { ({ m with registered := if m.registered = some f then none else m.registered }.close f) with stored := none }

/-- One event after the other, in the model of rt_monitor.c:33-538, aosl_socket.h:39-52; no code of its own. -/
def Mon.run (m : Mon) (ops : List MonOp) : Mon := ops.foldl Mon.step m

end Verif.Netlink
