import Verif.RBTree
/-
  Model of kernel/timer.c: the timers of one queue.

  A timer is identified by a number that is never used twice (the struct timer_node pointer; the
  16-bit life-id wrap of the public handle is the subject of the handle table model, IdTable.lean).
  Times and intervals are 64-bit values, written as natural numbers with explicit `% two64`
  (`aosl_ts_t` is uint64_t, `uintptr_t` is taken as 64 bits).  Everything here runs on the thread of
  the owning queue, as in the code: the API functions get there through __mpq_call.  The reference
  counts that let other threads reach a timer are modelled in TimerRef.lean.

  User callbacks are not functions of the model: whatever API calls a callback makes are commands
  following the `fire` command, chosen arbitrarily.
-/
namespace Verif.Timer
open Verif.RBTree

/-- Belongs to the model of kernel/timer.c:259-542, include/kernel/timer.h:24-81. -/
abbrev two63 : Nat := 9223372036854775808
/-- Belongs to the model of kernel/timer.c:259-542, include/kernel/timer.h:24-81. -/
abbrev two64 : Nat := 18446744073709551616
/-- AOSL_INVALID_TIMER_INTERVAL, include/api/aosl_mpq_timer.h:39. -/
abbrev invalidInterval : Nat := 18446744073709551615

/-- Unsigned 64-bit subtraction. -/
def sub64 (a b : Nat) : Nat := (a + two64 - b) % two64

/-- `time_after_eq (now, e)`: `(int64_t)(now - e) >= 0`, include/kernel/timer.h:80-81. -/
def due (now e : Nat) : Bool := sub64 now e < two63

/-- A timer linked into the timer base (struct timer_node, include/kernel/timer.h:24-46): its identity
    and `expire_time`, which is read only while the timer is linked and changed only while it is not.
    `seq` is ghost state: the moment of linking, not used by the code. -/
structure Node where
  id : Nat
  expire : Nat
  seq : Nat
deriving DecidableEq, Repr

/-- The branch of `__find_timer_prepare`, kernel/timer.c:265: `entry->expire_time > timer->expire_time`
    goes left, otherwise right. -/
def cmp : Cmp Node := fun y x =>
  if y.expire > x.expire then 1 else if y.expire = x.expire then 0 else -1

/-- `rb_prev` of `__find_timer_prepare` (kernel/timer.c:259-271): the last node the descent went right
    at.  The path lists the nodes passed, last one first. -/
def rbPrev : Path Node → Option Node
  | [] => none
  | f :: p => match f.dir with
    | .R => some f.key
    | .L => rbPrev p

/-- `rb_parent` of `__find_timer_prepare`: the last node passed. Belongs to the model of kernel/timer.c:259-542, include/kernel/timer.h:24-81. -/
def rbParent (p : Path Node) : Option Node := p.head?.map (·.key)

/-- struct timer_base, include/kernel/timer.h:64-67: the tree, and the list starting at `first` and
    following `timer_next`. -/
structure Base where
  root : Root Node
  chain : List Node

/-- Second branch of `__timer_link_list`, kernel/timer.c:301-306: link after `prev`.  A `prev` that is
    not in the list would leave the list unchanged. -/
def insertAfter (prev n : Node) : List Node → List Node
  | [] => []
  | y :: ys => if y = prev then y :: n :: ys else y :: insertAfter prev n ys

/-- `__timer_link_list`, kernel/timer.c:287-307.  Without `prev` the list becomes the new timer
    followed by whatever starts at the parent node. -/
def linkList (n : Node) (prev parent : Option Node) (chain : List Node) : List Node :=
  match prev with
  | some p => insertAfter p n chain
  | none => match parent with
    | some q => n :: chain.dropWhile (fun y => y != q)
    | none => [n]

/-- `__insert_timer`, kernel/timer.c:322-336, with `__timer_link_rb` (309-314).  `none` is a NULL
    dereference inside the tree code. -/
def insertTimer (b : Base) (n : Node) : Option Base :=
  let path := findLinks cmp n b.root.tree []
  match insertFix (.node .red .nil n .nil) path with
  | none => none
  | some t => some ⟨⟨t, b.root.count + 1⟩, linkList n (rbPrev path) (rbParent path) b.chain⟩

/-- The place of a linked node in the tree.  The code needs no search: the node is embedded in the
    timer. Belongs to the model of kernel/timer.c:259-542, include/kernel/timer.h:24-81. -/
def locate (id : Nat) : Tree Node → Path Node → Option (Pos Node)
  | .nil, _ => none
  | .node c l y r, p =>
    match locate id l (⟨.L, c, y, r⟩ :: p) with
    | some q => some q
    | none => if y.id = id then some ⟨c, l, y, r, p⟩ else locate id r (⟨.R, c, y, l⟩ :: p)

/-- `__timer_unlink_list`, kernel/timer.c:338-358. -/
def unlinkList (id : Nat) (chain : List Node) : List Node := chain.eraseP (fun y => y.id == id)

/-- `__unlink_timer`, kernel/timer.c:365-370, with `__timer_unlink_rb` (360-363). -/
def unlinkTimer (b : Base) (id : Nat) : Option Base :=
  match locate id b.root.tree [] with
  | none => none
  | some pos => (b.root.erase pos).map fun r => ⟨r, unlinkList id b.chain⟩

/-- What the rest of the world can observe, newest event first. Belongs to the model of kernel/timer.c:259-542, include/kernel/timer.h:24-81. -/
inductive Ev where
  /-- The timer was (re)scheduled with this expiry (linked). -/
  | sched (id expire : Nat)
  | cancel (id : Nat)
  | kill (id : Nat)
  /-- The callback of the timer was invoked; its expiry, and the time passed to it. -/
  | fire (id expire now : Nat)
deriving DecidableEq, Repr

/-- The fields of a live struct timer_node apart from its links: `interval`, and whether
    `timer_next != AOSL_LIST_POISON1`. Belongs to the model of kernel/timer.c:259-542, include/kernel/timer.h:24-81. -/
structure Rec where
  interval : Nat
  linked : Bool
deriving DecidableEq, Repr

/-- The timer part of a queue, the clock and, while the loop of `__check_and_run_timers` is running,
    its local `now`. Belongs to the model of kernel/timer.c:259-542, include/kernel/timer.h:24-81. -/
structure Q where
  base : Base
  recs : Nat → Option Rec
  nextId : Nat
  clock : Nat
  loopNow : Option Nat
  hist : List Ev

/-- Result of a command: `no` if it is not possible in this state, `ub` for undefined behaviour. Belongs to the model of kernel/timer.c:259-542, include/kernel/timer.h:24-81. -/
inductive Res (α : Type) where
  | ok (a : α)
  | no
  | ub

/-- A table changed at one place, as an assignment to one element or one object does; used in the model of kernel/timer.c:259-542, include/kernel/timer.h:24-81. -/
def upd (f : Nat → Option Rec) (i : Nat) (r : Option Rec) : Nat → Option Rec :=
  fun j => if j = i then r else f j

/-- `mpq_init_timers`, kernel/timer.c:465-471, on a fresh queue at time `clock`. -/
def Q.init (clock : Nat) : Q :=
  ⟨⟨Root.init, []⟩, fun _ => none, 0, clock, none, []⟩

/-- `__insert_timer` of timer `id` with its new fields. Belongs to the model of kernel/timer.c:259-542, include/kernel/timer.h:24-81. -/
def Q.link (q : Q) (id interval expire : Nat) : Res Q :=
  match insertTimer q.base ⟨id, expire, q.hist.length⟩ with
  | none => .ub
  | some b => .ok { q with base := b, recs := upd q.recs id (some ⟨interval, true⟩),
                           hist := .sched id expire :: q.hist }

/-- `__sched_timer`, kernel/timer.c:372-389 (argument `expire` 0 means "not specified"). -/
def Q.sched (q : Q) (id expire : Nat) : Res Q :=
  match q.recs id with
  | none => .ub
  | some r =>
    if expire ≠ 0 then q.link id invalidInterval expire
    else if r.interval ≠ invalidInterval then
      q.link id r.interval ((q.clock + r.interval) % two64)
    else q.link id r.interval (two64 - 1)

/-- `__unlink_timer` guarded by `timer->timer_next != AOSL_LIST_POISON1`: `__cancel_timer_on_q`
    (kernel/timer.c:402-406) and the first statement of `__resched_timer`. -/
def Q.unlinkIf (q : Q) (id : Nat) : Res Q :=
  match q.recs id with
  | none => .ub
  | some r =>
    if r.linked then
      match unlinkTimer q.base id with
      | none => .ub
      | some b => .ok { q with base := b, recs := upd q.recs id (some { r with linked := false }) }
    else .ok q

/-- Belongs to the model of kernel/timer.c:259-542, include/kernel/timer.h:24-81. -/
def Res.bind (x : Res α) (f : α → Res β) : Res β :=
  match x with
  | .ok a => f a
  | .no => .no
  | .ub => .ub

/-- Store a new interval (`timer->interval = interval`). Belongs to the model of kernel/timer.c:259-542, include/kernel/timer.h:24-81. -/
def Q.setInterval (q : Q) (id interval : Nat) : Res Q :=
  match q.recs id with
  | none => .ub
  | some r => .ok { q with recs := upd q.recs id (some { r with interval := interval }) }

/-- `__resched_timer`, kernel/timer.c:391-400. -/
def Q.resched (q : Q) (id interval expire : Nat) : Res Q :=
  (q.unlinkIf id).bind fun q =>
  (if expire = 0 ∧ interval ≠ invalidInterval then q.setInterval id interval else .ok q).bind fun q =>
  q.sched id expire

/-- `__create_timer_on_q`, kernel/timer.c:408-448; allocation failures are not modelled (they create
    no timer). -/
def Q.create (q : Q) (interval : Nat) : Q :=
  { q with recs := upd q.recs q.nextId (some ⟨interval, false⟩), nextId := q.nextId + 1 }

/-- `__kill_timer_on_q`, kernel/timer.c:450-463, for an installed timer, and mpq_fini_timers (473-485)
    which kills every timer. -/
def Q.killTimer (q : Q) (id : Nat) : Res Q :=
  (q.unlinkIf id).bind fun q =>
  .ok { q with recs := upd q.recs id none, hist := .kill id :: q.hist }

/-- The timer API, as far as it concerns scheduling.  Argument checks on `func` and `argc` are not
    modelled. Belongs to the model of kernel/timer.c:259-542, include/kernel/timer.h:24-81. -/
inductive Api where
  | create (interval : Nat)
  | createOneshot
  | set (interval : Nat)
  | setOneshot (expire : Nat)
  | setOneshotOnQ (expire : Nat)
  | resched (id interval : Nat)
  | reschedOneshot (id expire : Nat)
  | cancel (id : Nat)
  | kill (id : Nat)
deriving DecidableEq, Repr

/-- `(intptr_t)interval < 0`. Belongs to the model of kernel/timer.c:259-542, include/kernel/timer.h:24-81. -/
def negInterval (interval : Nat) : Bool := two63 ≤ interval

/-- The API functions: 544-583 and 641-656 (create), 658-705 (create oneshot), 719-758 and 818-833 (set),
    835-875 (set oneshot), 877-887 (set oneshot on q: no check for 0), 952-977 (resched), 979-998
    (resched oneshot), 1030-1043 (cancel), 1078-1091 (kill), all kernel/timer.c.  A call that fails
    changes nothing. -/
def Q.api (q : Q) : Api → Res Q
  | .create interval => if negInterval interval then .ok q else .ok (q.create interval)
  | .createOneshot => .ok (q.create invalidInterval)
  | .set interval =>
    if negInterval interval then .ok q else (q.create interval).sched q.nextId 0
  | .setOneshot expire =>
    if expire = 0 then .ok q else (q.create invalidInterval).sched q.nextId expire
  | .setOneshotOnQ expire => (q.create invalidInterval).sched q.nextId expire
  | .resched id interval =>
    match q.recs id with
    | none => .ok q
    | some r =>
      if negInterval interval then
        if negInterval r.interval then .ok q else q.resched id r.interval 0
      else q.resched id interval 0
  | .reschedOneshot id expire =>
    if expire = 0 then .ok q
    else match q.recs id with
      | none => .ok q
      | some _ => q.resched id invalidInterval expire
  | .cancel id =>
    match q.recs id with
    | none => .ok q
    | some _ => (q.unlinkIf id).bind fun q => .ok { q with hist := .cancel id :: q.hist }
  | .kill id =>
    match q.recs id with
    | none => .ok q
    | some _ => q.killTimer id

/-- One iteration of the loop of `__check_and_run_timers`, kernel/timer.c:494-536, up to the call of the
    callback.  `q.clock` is what aosl_tick_now returns in it. -/
def Q.fire (q : Q) : Res Q :=
  match q.loopNow with
  | none => .no
  | some now =>
    match q.base.chain with
    | [] => .no
    | n :: _ =>
      if due now n.expire then
        (q.unlinkIf n.id).bind fun q1 =>
        let q2 : Q := { q1 with hist := .fire n.id n.expire now :: q1.hist }
        match q2.recs n.id with
        | none => .ub
        | some r =>
          if r.interval ≠ invalidInterval then
            q2.link n.id r.interval (sub64 ((q.clock + r.interval) % two64) (sub64 now n.expire))
          else .ok q2
      else .no

/-- Commands: time passes, an API call is executed on the queue, the run loop is entered (reading the
    clock), does one iteration, or is left. Belongs to the model of kernel/timer.c:259-542, include/kernel/timer.h:24-81. -/
inductive Cmd where
  | tick (t : Nat)
  | api (a : Api)
  | enter
  | fire
  | leave
deriving DecidableEq, Repr

/-- kernel/timer.c:487-542 cut at the points where other code runs. -/
def Q.exec (q : Q) : Cmd → Res Q
  | .tick t => if q.clock ≤ t ∧ t < two64 then .ok { q with clock := t } else .no
  | .api a => q.api a
  | .enter => match q.loopNow with
    | none => .ok { q with loopNow := some q.clock }
    | some _ => .no
  | .fire => q.fire
  | .leave => match q.loopNow with
    | none => .no
    | some now => match q.base.chain with
      | [] => .ok { q with loopNow := none }
      | n :: _ => if due now n.expire then .no else .ok { q with loopNow := none }

/-- One event after the other, in the model of kernel/timer.c:259-542, include/kernel/timer.h:24-81; no code of its own. -/
def Q.run (q : Q) : List Cmd → Res Q
  | [] => .ok q
  | c :: cs => (q.exec c).bind fun q => q.run cs

/-- `mpq_max_wait_time`, kernel/mpq.c:705-719: -1 for "no limit". -/
def Q.maxWait (q : Q) : Int :=
  match q.base.chain with
  | [] => -1
  | n :: _ =>
    let d := sub64 n.expire q.clock
    if d < two63 then d else 0

end Verif.Timer
