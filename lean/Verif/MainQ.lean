/-! # Telling the main queue from the others (C221, C222)

Models kernel/mpq.c:1629-1637 (`aosl_mpq_is_main`), 1780-1830 (`aosl_main_start`, `aosl_mpq_main`, `aosl_main_exit`), 731-761 (`__q_destroy`), 800-851
(`__q_wait_destroy`), 950-998 (`mpq_thread_entry`) and 1003-1043 (`__mpq_create`): the variable `aosl_main_qid`, the threads that start a main queue and the life of every queue,
one step per access that others can see. Unlike `Verif.Lifecycle` the creation of the queue, the telling of the creator and the assignment of `aosl_main_qid` are separate steps.

Simplified: handles are never used twice (the life id of a handle wraps after 65535 queues, C159); a queue that is no main queue is created in one step;
waiting, kicking and the functions on the queue are left to other models. -/
namespace Verif.MainQ

/-- kernel/mpq.c:731 `aosl_main_qid`: -1, 0 ("to indicate we are creating the q", 1785) or a handle -/
inductive Cell
  | free
  | creating
  | q (i : Nat)
deriving DecidableEq, Repr

/-- Where the thread of a queue is. -/
inductive Ph
  /-- there is no such queue -/
  | absent
  /-- kernel/mpq.c:957-968: in the init callback, the queue is installed and `THIS_MPQ` is set -/
  | init
  /-- kernel/mpq.c:993-996: in `__mp_queue_poll_loop` -/
  | up
  /-- kernel/mpq.c:800-829: in `__q_wait_destroy`, functions and the fini callback run -/
  | ending
  /-- kernel/mpq.c:831-841, 733-750: after `__set_this_mpq (NULL)`, up to the comparison with `aosl_main_qid`; destructors of descriptors and timers run -/
  | detached
  /-- kernel/mpq.c:754-757: after the comparison, the queue not yet freed -/
  | cleared
  /-- freed (kernel/mpq.c:757), and whoever waited for the queue is told (843-851) -/
  | gone
deriving DecidableEq, Repr

/-- Where a thread is that calls `aosl_main_start` (kernel/mpq.c:1780-1802). -/
inductive SPh
  | idle
  /-- after the exchange (1782-1783), in `__mpq_create`, no queue yet -/
  | creating
  /-- waiting for the thread of queue `i` (1029-1032) -/
  | wait (i : Nat)
  /-- `__mpq_create` returned queue `i`; the assignment (1791) comes next -/
  | got (i : Nat)
deriving DecidableEq, Repr

/-- Data of the model of kernel/mpq.c:1629-1637. -/
structure St where
  cell : Cell
  /-- the next handle -/
  next : Nat
  ph : Nat → Ph
  /-- was it created by `aosl_main_start`? -/
  isM : Nat → Bool
  /-- the thread that started it -/
  starter : Nat → Nat
  /-- `AOSL_MPQ_FLAG_DESTROY_NOT_ALLOWED` -/
  prot : Nat → Bool
  /-- `q->terminated` -/
  term : Nat → Bool
  sts : Nat → SPh
  /-- history: some call of `aosl_main_start` failed to make its queue -/
  failed : Bool
  /-- history: the protection of a main queue was removed -/
  stripped : Bool
  /-- freed memory was read -/
  ub : Bool

/-- The state at the beginning, in the model of kernel/mpq.c:1629-1637. -/
def init0 : St :=
  { cell := .free, next := 1, ph := fun _ => .absent, isM := fun _ => false, starter := fun _ => 0, prot := fun _ => false, term := fun _ => false
    sts := fun _ => .idle, failed := false, stripped := false, ub := false }

/-- A table changed at one place, as an assignment to one element or one object does; used in the model of kernel/mpq.c:1629-1637. -/
def set {α : Type} (f : Nat → α) (i : Nat) (v : α) : Nat → α := fun j => if j = i then v else f j

inductive Ev
  /-- thread `t` calls `aosl_main_start` and the exchange succeeds -/
  | start (t : Nat)
  /-- no thread or no queue could be made: `aosl_main_start` returns -1 -/
  | noQueue (t : Nat)
  /-- the new thread made the main queue and installed it -/
  | born (t : Nat)
  /-- another queue is created -/
  | other
  /-- the init callback of the main queue succeeded and the starter is told -/
  | initOk (i : Nat)
  /-- it failed -/
  | initFail (i : Nat)
  /-- the starter sees that the init callback failed: `aosl_main_start` returns -1 -/
  | told (t : Nat)
  /-- `aosl_main_qid = q->qid`, and `aosl_main_start` returns 0 -/
  | assign (t : Nat)
  /-- `aosl_main_exit`, as far as it finds the queue -/
  | mainExit
  /-- `aosl_mpq_destroy` -/
  | destroy (i : Nat)
  /-- `aosl_mpq_change_flags` removes the protection (C165) -/
  | strip (i : Nat)
  /-- the loop sees `terminated` -/
  | leave (i : Nat)
  | detach (i : Nat)
  /-- `if (q->qid == aosl_main_qid) aosl_main_qid = AOSL_MPQ_INVALID` -/
  | clear (i : Nat)
  | free (i : Nat)
deriving DecidableEq, Repr

/-- kernel/mpq.c:235-260 `__mpq_get` finds queue `i` (it is in the table from 917 to 805) -/
abbrev installed (s : St) (i : Nat) : Prop := s.ph i = .init ∨ s.ph i = .up

/-- One step; `none` if it is not possible in the state. -/
def step (s : St) : Ev → Option St
  -- kernel/mpq.c:1782-1783
  | .start t => if s.sts t = .idle ∧ s.cell = .free then some { s with cell := .creating, sts := set s.sts t .creating } else none
  -- kernel/mpq.c:1022-1027, 977-984, 1788-1789
  | .noQueue t => if s.sts t = .creating then some { s with sts := set s.sts t .idle, failed := true } else none
  -- kernel/mpq.c:954-958, 862-921, flags 1785
  | .born t => if s.sts t = .creating then
      some { s with sts := set s.sts t (.wait s.next), ph := set s.ph s.next .init, isM := set s.isM s.next true, prot := set s.prot s.next true,
                    starter := set s.starter s.next t, next := s.next + 1 } else none
  -- kernel/mpq.c:1045-1075
  | .other => some { s with ph := set s.ph s.next .up, next := s.next + 1 }
  -- kernel/mpq.c:986-990, 1031-1042
  | .initOk i => if s.ph i = .init then some { s with ph := set s.ph i .up, sts := set s.sts (s.starter i) (.got i) } else none
  -- kernel/mpq.c:966-971
  | .initFail i => if s.ph i = .init then some { s with ph := set s.ph i .ending, term := set s.term i true } else none
  -- kernel/mpq.c:972, 986-990, 1039-1042, 1788-1789
  | .told t => match s.sts t with
    | .wait i => if s.ph i = .gone then some { s with sts := set s.sts t .idle, failed := true } else none
    | _ => none
  -- kernel/mpq.c:1791
  | .assign t => match s.sts t with
    | .got i => if s.ph i = .gone then some { s with ub := true } else some { s with cell := .q i, sts := set s.sts t .idle }
    | _ => none
  -- kernel/mpq.c:1813-1816, 1668-1690 (`check_allowed` is 0)
  | .mainExit => match s.cell with
    | .q i => if installed s i then some { s with term := set s.term i true } else none
    | _ => none
  -- kernel/mpq.c:1668-1695
  | .destroy i => if installed s i ∧ s.prot i = false then some { s with term := set s.term i true } else none
  -- kernel/mpq.c:1078-1143
  | .strip i => if installed s i then some { s with prot := set s.prot i false, stripped := s.stripped || s.isM i } else none
  -- kernel/mpq.c:775-778, 805
  | .leave i => if s.ph i = .up ∧ s.term i = true then some { s with ph := set s.ph i .ending } else none
  -- kernel/mpq.c:828-831
  | .detach i => if s.ph i = .ending then some { s with ph := set s.ph i .detached } else none
  -- kernel/mpq.c:752-755
  | .clear i => if s.ph i = .detached then some { s with ph := set s.ph i .cleared, cell := if s.cell = .q i then .free else s.cell } else none
  -- kernel/mpq.c:757
  | .free i => if s.ph i = .cleared then some { s with ph := set s.ph i .gone } else none

/-- Every state that some history leads to. Nothing is said of what follows once freed memory was read. Belongs to the model of kernel/mpq.c:1629-1637. -/
inductive Reach : St → Prop
  | start : Reach init0
  | step {s s' : St} (e : Ev) (h : Reach s) (hu : s.ub = false) (hs : step s e = some s') : Reach s'

/-- kernel/mpq.c:1629-1637 `aosl_mpq_is_main`, called on a thread without a queue (`none`) or on the thread of queue `i`: `THIS_MPQ` is that queue while it is in its
init callback, in its loop or in `__q_wait_destroy` before 831, and NULL afterwards. -/
def isMain (s : St) (caller : Option Nat) : Nat :=
  match caller with
  | none => 0
  | some i =>
    if s.ph i = .init ∨ s.ph i = .up ∨ s.ph i = .ending then
      match s.cell with
      | .q j => if i = j then 1 else 0
      | _ => 0
    else 0

/-- kernel/mpq.c:1804-1811 `aosl_mpq_main`, without the passage through an int (C159) -/
def mpqMain (s : St) : Int :=
  match s.cell with
  | .free => -1
  | .creating => 0
  | .q i => i

/-- include/api/aosl_mpq.h:355 `aosl_main_started`, for handles whose slot number is not negative as an int16_t (C159) -/
def started (s : St) : Bool := decide (0 ≤ mpqMain s)

/-- kernel/mpq.c:1782-1783, 1799-1801: would `aosl_main_start` be refused with EEXIST now? -/
def refused (s : St) : Bool := s.cell != .free

/-- One event after the other, in the model of kernel/mpq.c:1629-1637; no code of its own. -/
def runs (s : St) : List Ev → Option St
  | [] => some s
  | e :: es => if s.ub then none else (step s e).bind fun s' => runs s' es

end Verif.MainQ
