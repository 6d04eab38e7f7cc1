/-!
# The callbacks of a queue and the current queue they see

Models the life of the thread of a queue: mpq_thread_entry (kernel/mpq.c:928-975), its loop (mpq.c:768-796), `__q_wait_destroy` (mpq.c:800-851), `__q_destroy` (mpq.c:733-758) with
mpq_fini_timers (kernel/timer.c:473-485, 449-463), and what a callback sees of it: aosl_mpq_this (mpq.c:1143-1146), and `__get_or_create_current` (mpq.c:1131-1141), which the calls that make
something on the current queue use (timer.c:567, 676, 742, 858; iofd.c:425; net/sk_utils.c:261, 375, 463, 553) — here making a timer stands for them.

One thread.  A callback is one step: what it sees as its queue and how many timers it makes.  Making timers and queues succeeds.  Handles, references to timers from elsewhere (`TimerRef`), the other
threads and the descriptors are left out.
-/

namespace Verif.QEnd

/-- Where the thread is. -/
inductive Phase
  | boot
  /-- the queue exists, `init` comes next -/
  | initing
  /-- in the loop -/
  | running
  /-- the loop has ended (or `init` has failed): the remaining functions (mpq.c:807-826) -/
  | draining
  /-- `__set_this_mpq (NULL)` is done: `__q_destroy` -/
  | dying
  /-- the thread function has returned -/
  | gone
deriving DecidableEq, Repr

/-- A callback of the user. Belongs to the model of kernel/mpq.c:928-975, mpq.c:768-796, mpq.c:800-851. -/
inductive Cb
  | init
  | func
  /-- a timer's function -/
  | timer (id : Nat)
  /-- a descriptor's function -/
  | fd
  /-- a timer's destructor -/
  | dtor (id : Nat)
  | fini
deriving DecidableEq, Repr

/-- A callback that ran, in which phase, and what aosl_mpq_this gave it. Belongs to the model of kernel/mpq.c:928-975, mpq.c:768-796, mpq.c:800-851. -/
structure Ran where
  cb : Cb
  phase : Phase
  this : Option Nat
deriving DecidableEq, Repr

/-- `cur`: THIS_MPQ (): the thread's queue is number 0, the queues made later 1, 2, …; `timers`: the timers there are, with their queue; `made`: the queues made later; `next`: the timers made so far. Belongs to the model of kernel/mpq.c:928-975, mpq.c:768-796, mpq.c:800-851. -/
structure St where
  phase : Phase
  cur : Option Nat
  timers : List (Nat × Nat)
  made : Nat
  next : Nat
  ran : List Ran
deriving DecidableEq, Repr

/-- The state at the beginning, in the model of kernel/mpq.c:928-975, mpq.c:768-796, mpq.c:800-851. -/
def St.init : St := ⟨.boot, none, [], 0, 0, []⟩

/-- `__get_or_create_current` (mpq.c:1131-1141) -/
def current (s : St) : Nat × St :=
  match s.cur with
  | some q => (q, s)
  | none => (s.made + 1, { s with cur := some (s.made + 1), made := s.made + 1 })

/-- aosl_mpq_create_timer and aosl_mpq_set_timer: `aosl_list_add_tail (&timer->node, &q->timers)` (timer.c:441) -/
def makeTimer (s : St) : St :=
  let (q, s1) := current s
  { s1 with timers := s1.timers ++ [(q, s1.next)], next := s1.next + 1 }

/-- Belongs to the model of kernel/mpq.c:928-975, mpq.c:768-796, mpq.c:800-851. -/
def makeTimers : Nat → St → St
  | 0, s => s
  | n + 1, s => makeTimers n (makeTimer s)

/-- The callback `cb` runs and makes `n` timers. Belongs to the model of kernel/mpq.c:928-975, mpq.c:768-796, mpq.c:800-851. -/
def call (s : St) (cb : Cb) (n : Nat) : St := makeTimers n { s with ran := s.ran ++ [⟨cb, s.phase, s.cur⟩] }

inductive Op
  /-- `__q_create`; if it fails, `fini` is called all the same (mpq.c:953-960) -/
  | boot (ok : Bool) (hasFini : Bool) (n : Nat)
  /-- `init` (mpq.c:945-951); `ok`: it returns a value that is not negative -/
  | init (n : Nat) (ok : Bool)
  | func (n : Nat)
  | timer (id n : Nat)
  | fd (n : Nat)
  /-- a timer of the queue is killed by a callback of the queue (timer.c:449-463) -/
  | kill (id n : Nat)
  /-- the end was asked for (mpq.c:784-787) -/
  | terminate
  /-- `fini` (mpq.c:828-829), then `__set_this_mpq (NULL)` (831); `hasFini`: there is such a function -/
  | finish (hasFini : Bool) (n : Nat)
  /-- mpq_fini_timers takes the queue's first timer -/
  | dtor (n : Nat)
  /-- the thread function returns -/
  | exit
deriving DecidableEq, Repr

/-- The timers of the thread's queue. Belongs to the model of kernel/mpq.c:928-975, mpq.c:768-796, mpq.c:800-851. -/
def own (s : St) : List Nat := (s.timers.filter (fun p => p.1 = 0)).map (·.2)

/-- `none`: not possible now. Belongs to the model of kernel/mpq.c:928-975, mpq.c:768-796, mpq.c:800-851. -/
def step (s : St) : Op → Option St
  | .boot ok hasFini n =>
    if s.phase = .boot then
      if ok then some { s with phase := .initing, cur := some 0 }
      else some { (if hasFini then call s .fini n else s) with phase := .gone }
    else none
  | .init n ok => if s.phase = .initing then some { call s .init n with phase := if ok then .running else .draining } else none
  | .func n => if s.phase = .running ∨ s.phase = .draining then some (call s .func n) else none
  | .timer id n => if s.phase = .running ∧ id ∈ own s then some (call s (.timer id) n) else none
  | .fd n => if s.phase = .running then some (call s .fd n) else none
  | .kill id n =>
    if (s.phase = .running ∨ s.phase = .draining) ∧ id ∈ own s then some (call { s with timers := s.timers.erase (0, id) } (.dtor id) n) else none
  | .terminate => if s.phase = .running then some { s with phase := .draining } else none
  | .finish hasFini n =>
    if s.phase = .draining then some { (if hasFini then call s .fini n else s) with phase := .dying, cur := none } else none
  | .dtor n =>
    if s.phase = .dying then
      match own s with
      | id :: _ => some (call { s with timers := s.timers.erase (0, id) } (.dtor id) n)
      | [] => none
    else none
  | .exit => if s.phase = .dying ∧ own s = [] then some { s with phase := .gone } else none

/-- One event after the other, in the model of kernel/mpq.c:928-975, mpq.c:768-796, mpq.c:800-851; no code of its own. -/
def run : St → List Op → Option St
  | s, [] => some s
  | s, op :: ops => match step s op with
    | none => none
    | some s' => run s' ops

end Verif.QEnd
