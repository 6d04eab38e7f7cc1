import Verif.NetUtil
/-!
  Model of net/route.c and of the part of kernel/rt_monitor.c:207-440 that turns the kernel's answer into
  a default route.  `v6` is the configuration switch CONFIG_AOSL_IPV6.
-/
namespace Verif.Route
open Verif.NetUtil (Sk ipEqual AF_UNSPEC AF_INET AF_INET6)

/-- aosl_route.h:37-48 aosl_rt_t, without the interface name and the two flags, which are not compared.
    Of the gateway only the family and the address bytes matter. -/
structure Rt where
  ifIndex : Int
  ifType : Int
  cnt : Int
  gw : Sk

/-- Data of the model of kernel/rt_monitor.c:207-440. -/
structure DefRt where
  v4 : Rt
  v6 : Rt

/-- route.c:105-109 -/
def invalidateRt (r : Rt) : Rt := { r with ifIndex := -1, gw := { r.gw with family := AF_UNSPEC } }
/-- route.c:111-115 -/
def invalidateDefRt (d : DefRt) : DefRt := ⟨invalidateRt d.v4, invalidateRt d.v6⟩

/-- Belongs to the model of kernel/rt_monitor.c:207-440. -/
def zeroSk : Sk := ⟨AF_UNSPEC, 0, fun _ => 0, fun _ => 0, fun _ => 0⟩
/-- route.c:178-197 -/
def initRt : Rt := ⟨-1, -1, 0, zeroSk⟩
/-- Belongs to the model of kernel/rt_monitor.c:207-440. -/
def initDefRt : DefRt := ⟨initRt, initRt⟩

/-- route.c:47-64 -/
def rtValid (v6 : Bool) (r : Rt) : Bool :=
  if r.ifIndex < 0 then false
  else decide (r.gw.family = AF_INET) || (v6 && decide (r.gw.family = AF_INET6))
/-- route.c:66-69 -/
def defRtValid (v6 : Bool) (d : DefRt) : Bool := rtValid v6 d.v4 || rtValid v6 d.v6

/-- route.c:71-83 -/
def sameRt (a b : Rt) : Bool :=
  if a.ifIndex < 0 ∧ b.ifIndex < 0 then true
  else if a.ifIndex ≠ b.ifIndex then false
  else if a.ifType ≠ b.ifType then false
  else ipEqual a.gw b.gw
/-- route.c:85-97 -/
def sameDefRt (v6 : Bool) (a b : DefRt) : Bool :=
  if ¬ sameRt a.v4 b.v4 then false
  else if v6 ∧ ¬ sameRt a.v6 b.v6 then false
  else true
/-- route.c:99-103 -/
def sameCnt (a b : DefRt) : Bool := decide (a.v4.cnt = b.v4.cnt) && decide (a.v6.cnt = b.v6.cnt)

/-- A default route found in the kernel's tables: interface, its type, number of default routes, gateway. Belongs to the model of kernel/rt_monitor.c:207-440. -/
structure Found where
  ifIndex : Nat
  ifType : Int
  cnt : Nat
  gw : Nat → BitVec 8

/-- One observation of the system: the default route of each family, if any. Belongs to the model of kernel/rt_monitor.c:207-440. -/
structure Obs where
  v4 : Option Found
  v6 : Option Found

/-- rt_monitor.c:230, 351-415: the effect of __af_get_default_rt on the structure passed. Nothing found:
    only the index and the family are invalidated. -/
def afGet (af : Nat) (f : Option Found) (old : Rt) : Bool × Rt :=
  match f with
  | none => (false, invalidateRt old)
  | some f => (true, ⟨f.ifIndex, f.ifType, (if f.cnt > 2 then 2 else f.cnt : Nat),
      ⟨af, old.gw.port, f.gw, f.gw, old.gw.scope⟩⟩)

/-- rt_monitor.c:428-438 os_get_def_rt -/
def osGetDefRt (v6 : Bool) (o : Obs) (old : DefRt) : Nat × DefRt :=
  let (g4, r4) := afGet AF_INET o.v4 old.v4
  if v6 then
    let (g6, r6) := afGet AF_INET6 o.v6 old.v6
    (g4.toNat + g6.toNat, ⟨r4, r6⟩)
  else (g4.toNat, ⟨r4, old.v6⟩)

/-- aosl_route.h:23-30 -/
inductive Ev where
  | down | up | upChanged | netSwitch | cntChanged
  deriving DecidableEq, Repr

/-- route.c:22-30 -/
structure State where
  rts : Bool → DefRt
  last : DefRt
  curr : Bool
  subscriber : Option Nat

/-- a call of the subscriber's function. Belongs to the model of kernel/rt_monitor.c:207-440. -/
structure Call where
  ev : Ev
  rt1 : DefRt
  rt2 : DefRt

/-- route.c:373-378 -/
def State.clear (s : State) : State := { s with rts := fun _ => initDefRt, last := initDefRt }
/-- route.c:438-443 -/
def State.init : State := ⟨fun _ => initDefRt, initDefRt, false, none⟩

/-- route.c:117-176 check_report_def_rt_change_event with a subscriber's function (f is never NULL in the
    callers); `junk` are the two uninitialised local structures. One step under the write lock; the
    function is called after the unlock. -/
def check (v6 : Bool) (junk : DefRt) (s : State) (o : Obs) : State × Option Call :=
  let d1 := invalidateDefRt junk
  let d2 := invalidateDefRt junk
  let cur := s.rts s.curr
  let valid := defRtValid v6 cur
  let (n, new) := osGetDefRt v6 o (s.rts (!s.curr))
  let rts := fun b => if b = !s.curr then new else s.rts b
  if n > 0 then
    let call :=
      if valid then
        if ¬ sameDefRt v6 new cur then some ⟨.netSwitch, cur, new⟩
        else if ¬ sameCnt new cur then some ⟨.cntChanged, cur, new⟩
        else none
      else if defRtValid v6 s.last && !sameDefRt v6 new s.last then some ⟨.upChanged, s.last, new⟩
      else some ⟨.up, new, d2⟩
    ({ s with rts := rts, last := new, curr := !s.curr }, call)
  else
    ({ s with rts := rts, curr := !s.curr }, if valid then some ⟨.down, d1, d2⟩ else none)

/-- route.c:224-235 -/
def networkIsDown (v6 : Bool) (s : State) : Bool := !defRtValid v6 (s.rts s.curr)

inductive Op where
  /-- aosl_subscribe_net_events with a function, from queue `q` (none: not on a queue); `osOk`: the
      monitoring socket could be set up; `o`: what the first check observes -/
  | subscribe (q : Option Nat) (osOk : Bool) (o : Obs)
  /-- aosl_subscribe_net_events with NULL -/
  | unsubscribe (q : Option Nat)
  /-- a route message arrives (rt_monitor.c:452-456); the messages arrive only while subscribed -/
  | routeMsg (o : Obs)

/-- The outcomes, in the model of kernel/rt_monitor.c:207-440. -/
inductive Res where
  | ok | einval | eexist | eperm | osError | none
  deriving DecidableEq, Repr

/-- route.c:380-436, rt_monitor.c:518-536 -/
def step (v6 : Bool) (junk : DefRt) (s : State) : Op → State × Res × Option Call
  | .subscribe none _ _ => (s, .einval, none)
  | .subscribe (some q) osOk o =>
    if s.subscriber.isSome then (s, .eexist, none)
    else if osOk = false then (s, .osError, none)
    else
      let (s', c) := check v6 junk { s with subscriber := some q } o
      (s', .ok, c)
  | .unsubscribe none => (s, .einval, none)
  | .unsubscribe (some q) =>
    if s.subscriber ≠ some q then (s, .eperm, none)
    else ({ s.clear with subscriber := none }, .ok, none)
  | .routeMsg o =>
    if s.subscriber.isNone then (s, .none, none)
    else
      let (s', c) := check v6 junk s o
      (s', .none, c)

/-- One event after the other, in the model of kernel/rt_monitor.c:207-440; no code of its own. -/
def run (v6 : Bool) (junk : DefRt) (s : State) (ops : List Op) : State :=
  ops.foldl (fun s op => (step v6 junk s op).1) s

/-! ### aosl_def_rt_str -/

/-- `snprintf (buf, n, "%s", t)`: the text stored and the number of bytes written. Belongs to the model of kernel/rt_monitor.c:207-440. -/
def snprintf (n : Nat) (t : List Char) : List Char × Nat :=
  if n = 0 then ([], 0) else (t.take (n - 1), min t.length (n - 1) + 1)

/-- route.c:261-293; `t4`, `t6` are the texts of the two routes (none: not valid). The result is the
    string in `buf` (none: "<EMPTY DEF_RT>") and the number of bytes of `buf` that were written, counting
    from its start. `buf_size - len` is computed in 64-bit unsigned arithmetic. -/
def defRtStr (t4 t6 : Option (List Char)) (bufSize : BitVec 64) : Option (List Char) × Nat :=
  let n := bufSize.toNat
  let (b, ext) := match t4 with
    | some t => let r := snprintf n t; (r.1, max 1 r.2)
    | none => ([], 1)
  match t6 with
  | some t =>
    let (b, ext) := if b.length > 0 then (b ++ [';', ' '], max ext (b.length + 3)) else (b, ext)
    let r := snprintf (bufSize - BitVec.ofNat 64 b.length).toNat t
    let res := b ++ r.1
    (if res.length > 0 then some res else none, if r.2 = 0 then ext else max ext (b.length + r.2))
  | none => (if b.length > 0 then some b else none, ext)

/-! ### Choice among several default routes, rt_monitor.c:280-347 -/

/-- A default route entry of the kernel's dump that has an output interface: RTA_PRIORITY (if present),
    RTA_OIF and RTA_GATEWAY. Belongs to the model of rt_monitor.c:280-347. -/
structure Entry where
  pri : Option (BitVec 32)
  oif : Nat
  gw : Option (List (BitVec 8))
  deriving DecidableEq, Repr

/-- the local variables min_metric, rta_oif/rta_gw, def_rt_cnt. Belongs to the model of rt_monitor.c:280-347. -/
structure Sel where
  min : BitVec 32
  best : Option Entry
  cnt : Nat
  deriving DecidableEq, Repr

/-- rt_monitor.c:314, 335-346. All entries are assumed to arrive in one message (the pointers kept
    across several `recv` calls are not modelled). -/
def selStep (s : Sel) (e : Entry) : Sel :=
  let s := { s with cnt := s.cnt + 1 }
  match e.pri with
  | some p => if p < s.min then { s with min := p, best := some e } else s
  | none => if s.best.isNone then { s with best := some e } else s

/-- Belongs to the model of rt_monitor.c:280-347. -/
def select (es : List Entry) : Sel := es.foldl selStep ⟨0xffffffff#32, none, 0⟩

end Verif.Route
