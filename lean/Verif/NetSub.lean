/-
  Model of the life of the network event subscription across the end of queues and of the library:
  net/route.c:22-24, 375-450, kernel/rt_monitor.c:33, 466-536, kernel/iofd.c:572-608, net/netifs.c:122-152,
  kernel/mpq.c:731-760, 1880-1941.

  What is kept: the static variables `netev_subscriber_q` and `af_netlink_fd`, which queues are running, who owns which
  descriptor number of the process, and how many interface records are in the hash table.  A queue is
  its handle (a natural number); handles may come up again after 65535 further queues (C19), so `create` may be given any
  handle that is not running.  What is reported to the subscriber is C69, the messages are C147-C150, errors on the
  monitoring socket are C151.
-/
namespace Verif.NetSub

/-- who opened a descriptor of the process -/
inductive Owner where
  /-- the monitoring socket, registered on a queue (rt_monitor.c:489) -/
  | monitor (q : Nat)
  /-- anybody else in the process -/
  | other
deriving DecidableEq, Repr

structure St where
  /-- between aosl_ctor and the last aosl_dtor (C60) -/
  up : Bool
  /-- running queues -/
  live : Nat → Bool
  /-- `netev_subscriber_q`, route.c:22 -/
  sub : Option Nat
  /-- `af_netlink_fd`, rt_monitor.c:33 -/
  af : Option Nat
  /-- descriptors of the process -/
  file : Nat → Option Owner
  /-- interface records in `__netifs_hash` -/
  cached : Nat
  /-- interface records no list leads to any more -/
  lost : Nat
  /-- descriptors closed by the library that it had not opened -/
  foreign : List Nat

/-- The state at the beginning, in the model of net/route.c:22-24, 375-450, kernel/rt_monitor.c:33, 466-536, kernel/iofd.c:572-608. -/
def St.init : St := ⟨false, fun _ => false, none, none, fun _ => none, 0, 0, []⟩

inductive Op where
  | ctor
  | dtor
  | create (q : Nat)
  /-- the queue `q` ends (destroyed, or its main function returned) -/
  | finish (q : Nat)
  /-- aosl_subscribe_net_events (f, arg) called on queue `q`; the kernel offers descriptor `fd`; `osOk`: the socket can be
      bound and registered; `n` interfaces exist -/
  | subscribe (q : Nat) (fd : Nat) (osOk : Bool) (n : Nat)
  /-- aosl_subscribe_net_events (NULL, …) called on queue `q` -/
  | unsubscribe (q : Nat)
  /-- an interface record is added by a link message (rt_monitor.c:447-451) -/
  | link
  /-- somebody else in the process opens / closes descriptor `fd` -/
  | opens (fd : Nat)
  | closes (fd : Nat)
deriving DecidableEq, Repr

/-- `skip`: the operation is not possible in this state (queue not running, library down, descriptor taken). Belongs to the model of net/route.c:22-24, 375-450, kernel/rt_monitor.c:33, 466-536, kernel/iofd.c:572-608. -/
inductive Res where
  | ok | eexist | eperm | eos | skip
deriving DecidableEq, Repr

/-- A table changed at one place, as an assignment to one element or one object does; used in the model of net/route.c:22-24, 375-450, kernel/rt_monitor.c:33, 466-536, kernel/iofd.c:572-608. -/
def set {α : Type} (f : Nat → α) (k : Nat) (v : α) : Nat → α := fun i => if i = k then v else f i

/-- rt_monitor.c:530-536 os_unsubscribe_net_events with aosl_close (iofd.c:624-668): whatever has the remembered number is closed. -/
def osUnsubscribe (s : St) : St :=
  match s.af with
  | none => s
  | some fd =>
    match s.file fd with
    | none => { s with af := none }
    | some (.monitor _) => { s with af := none, file := set s.file fd none }
    | some .other => { s with af := none, file := set s.file fd none, foreign := fd :: s.foreign }

/-- all monitoring sockets closed. Belongs to the model of net/route.c:22-24, 375-450, kernel/rt_monitor.c:33, 466-536, kernel/iofd.c:572-608. -/
def dropMonitors (f : Nat → Option Owner) : Nat → Option Owner := fun fd =>
  match f fd with
  | some (.monitor _) => none
  | some .other => some .other
  | none => none

/-- one event; the result is that of the call -/
def step (s : St) : Op → St × Res
  -- mpq.c:1917-1941; k_route_init (route.c:438-443) empties the hash table and does not touch the subscription
  | .ctor => if s.up then (s, .ok) else ({ s with up := true, lost := s.lost + s.cached, cached := 0 }, .ok)
  -- mpq.c:1880-1915; k_route_fini (route.c:445-450) calls netifs_hash_init, not netifs_hash_fini.  The queues are
  -- expected to have ended (mpq.c:83-87 only complains): here the ones still running end first.  The last user only.
  | .dtor =>
    if s.up then
      ({ s with
          up := false
          live := fun _ => false
          lost := s.lost + s.cached
          cached := 0
          file := dropMonitors s.file }, .ok)
    else (s, .ok)
  | .create q => if s.up ∧ s.live q = false then ({ s with live := set s.live q true }, .ok) else (s, .skip)
  -- __q_destroy (mpq.c:731-760), mpq_fini_iofds (iofd.c:598-608): the registered descriptors are closed, no event callback
  | .finish q =>
    if s.up ∧ s.live q = true then
      ({ s with
          live := set s.live q false
          file := fun fd => if s.file fd = some (.monitor q) then none else s.file fd }, .ok)
    else (s, .skip)
  -- route.c:392-416, rt_monitor.c:517-527
  | .subscribe q fd osOk n =>
    if s.up ∧ s.live q = true then
      if s.sub ≠ none then (s, .eexist)
      else if osOk ∧ s.file fd = none then
        ({ s with sub := some q, af := some fd, file := set s.file fd (some (.monitor q)), cached := s.cached + n }, .ok)
      else (s, .eos)
    else (s, .skip)
  -- route.c:418-434
  | .unsubscribe q =>
    if s.up ∧ s.live q = true then
      if s.sub ≠ some q then (s, .eperm)
      else ({ osUnsubscribe s with sub := none, cached := 0 }, .ok)
    else (s, .skip)
  | .link =>
    match s.sub, s.af with
    | some q, some fd => if s.file fd = some (.monitor q) then ({ s with cached := s.cached + 1 }, .ok) else (s, .skip)
    | _, _ => (s, .skip)
  | .opens fd => if s.file fd = none then ({ s with file := set s.file fd (some .other) }, .ok) else (s, .skip)
  | .closes fd => if s.file fd = some .other then ({ s with file := set s.file fd none }, .ok) else (s, .skip)

/-- One event after the other, in the model of net/route.c:22-24, 375-450, kernel/rt_monitor.c:33, 466-536, kernel/iofd.c:572-608; no code of its own. -/
def run (s : St) : List Op → St
  | [] => s
  | o :: os => run (step s o).1 os

end Verif.NetSub
