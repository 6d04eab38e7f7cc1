import Verif.Route
/-!
  Model of aosl_is_mobile_net (net/route.c:295-325) and of the cellular flag kept with a default route
  (kernel/rt_monitor.c:351-377), on top of the model of net/route.c in `Route`.
-/
namespace Verif.RouteKnow
open Verif.Route
open Verif.NetUtil (AF_UNSPEC AF_INET AF_INET6)

/-- The name of the interface of each family's default route, as the table of interfaces has it (none:
    the interface is not in the table). Belongs to the model of net/route.c:295-325, kernel/rt_monitor.c:351-377. -/
structure Names where
  v4 : Option (List Char)
  v6 : Option (List Char)

/-- rt_monitor.c:358-377: the flag stored with a route that was found; `android` is CONFIG_ANDROID. The
    name is a NUL-terminated array, `memcmp (name, "wlan", 4)` looks at its first four characters. -/
def cellnet (android : Bool) (name : Option (List Char)) : Int :=
  match name with
  | some n => if android then (if n.take 4 = ['w', 'l', 'a', 'n'] then 0 else 1) else 0
  | none => if android then 1 else 0

/-- the two flags of an aosl_def_rt_t. Belongs to the model of net/route.c:295-325, kernel/rt_monitor.c:351-377. -/
structure Cell where
  v4 : Int
  v6 : Int
  deriving DecidableEq

/-- route.c:22-30: the state of `Route` with the flags of the two buffers def_rts[0..1] -/
structure CState where
  base : Route.State
  cell : Bool → Cell

/-- route.c:178-197, 438-443 -/
def CState.init : CState := ⟨Route.State.init, fun _ => ⟨0, 0⟩⟩

/-- rt_monitor.c:230, 351-438: the flags of the structure os_get_def_rt fills; a family without a route
    keeps the old flag -/
def osGetCell (v6 android : Bool) (o : Obs) (n : Names) (old : Cell) : Cell :=
  let c4 := if o.v4.isSome then cellnet android n.v4 else old.v4
  if v6 then ⟨c4, if o.v6.isSome then cellnet android n.v6 else old.v6⟩ else ⟨c4, old.v6⟩

/-- the flags after check_report_def_rt_change_event (route.c:117-176), which writes the other buffer -/
def checkCell (v6 android : Bool) (s : CState) (o : Obs) (n : Names) : Bool → Cell :=
  fun b => if b = !s.base.curr then osGetCell v6 android o n (s.cell b) else s.cell b

/-- route.c:380-436 with the flags; `n` names the interfaces the observation of the operation finds -/
def step (v6 android : Bool) (junk : DefRt) (s : CState) (op : Op × Names) : CState × Res × Option Call :=
  let r := Route.step v6 junk s.base op.1
  let cell := match op.1 with
    | .subscribe (some _) osOk o =>
      if s.base.subscriber.isSome then s.cell else if osOk = false then s.cell else checkCell v6 android s o op.2
    | .subscribe none _ _ => s.cell
    | .unsubscribe none => s.cell
    | .unsubscribe (some q) => if s.base.subscriber ≠ some q then s.cell else fun _ => ⟨0, 0⟩
    | .routeMsg o => if s.base.subscriber.isNone then s.cell else checkCell v6 android s o op.2
  (⟨r.1, cell⟩, r.2.1, r.2.2)

/-- One event after the other, in the model of net/route.c:295-325, kernel/rt_monitor.c:351-377; no code of its own. -/
def run (v6 android : Bool) (junk : DefRt) (s : CState) (ops : List (Op × Names)) : CState :=
  ops.foldl (fun s op => (step v6 android junk s op).1) s

/-- route.c:295-325 aosl_is_mobile_net; `none` is -1 with AOSL_EINVAL -/
def isMobileNet (v6 : Bool) (s : CState) (af : Nat) : Option Int :=
  let d := s.base.rts s.base.curr
  let c := s.cell s.base.curr
  if af = AF_INET then (if d.v4.gw.family ≠ AF_UNSPEC then some c.v4 else none)
  else if v6 ∧ af = AF_INET6 then (if d.v6.gw.family ≠ AF_UNSPEC then some c.v6 else none)
  else none

/-- What the subscriber's function keeps: the description in the last event it got (aosl_route.h:23-30:
    UP passes the new route first, the three changes pass it second, DOWN passes none), none while the
    network is down. `Route.step` on one operation, then the function. -/
def hear (v : Option DefRt) : Option Call → Option DefRt
  | none => v
  | some c => match c.ev with
    | .down => none
    | .up => some c.rt1
    | .upChanged | .netSwitch | .cntChanged => some c.rt2

/-- The library and the subscriber together: route.c:380-436; a subscription starts and ends with a
    subscriber that knows of no network. -/
def stepBoth (v6 : Bool) (junk : DefRt) (p : Route.State × Option DefRt) (op : Op) : Route.State × Option DefRt :=
  let r := Route.step v6 junk p.1 op
  let v := match op with
    | .unsubscribe _ => if r.2.1 = .ok then none else p.2
    | _ => p.2
  (r.1, hear v r.2.2)

/-- Belongs to the model of net/route.c:295-325, kernel/rt_monitor.c:351-377. -/
def runBoth (v6 : Bool) (junk : DefRt) (ops : List Op) : Route.State × Option DefRt :=
  ops.foldl (stepBoth v6 junk) (Route.State.init, none)

end Verif.RouteKnow
