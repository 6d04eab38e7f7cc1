/-
  Model of the flags of a queue (kernel/mpq.c:1050-1127, 285-345, 1674-1688; kernel/osmp.c:84-111, 176-184, 251-339; kernel/iofd.c:300-305) and of
  the performance callback (kernel/mpq.c:147, 153-175, 548-561).
-/
namespace Verif.QFlags

/-- `int` flags, as 32 bits. -/
abbrev Flags := BitVec 32

/-- AOSL_MPQ_FLAG_NONBLOCK, AOSL_MPQ_FLAG_SIGP_EVENT, AOSL_MPQ_FLAG_DESTROY_NOT_ALLOWED (aosl_mpq.h:103-105): bits 0, 1, 31 -/
def nonblock (f : Flags) : Bool := f.getLsbD 0
/-- Belongs to the model of kernel/mpq.c:1050-1127, 285-345, 1674-1688, kernel/osmp.c:84-111, 176-184, 251-339, kernel/iofd.c:300-305. -/
def sigpEvent (f : Flags) : Bool := f.getLsbD 1
/-- Belongs to the model of kernel/mpq.c:1050-1127, 285-345, 1674-1688, kernel/osmp.c:84-111, 176-184, 251-339, kernel/iofd.c:300-305. -/
def noDestroy (f : Flags) : Bool := f.getLsbD 31

/-- How the queue's thread can be woken up: made once, by `os_init_sigp` (osmp.c:317-339). -/
inductive Chan where
  | pipe | event
deriving DecidableEq, Repr

/-- Data of the model of kernel/mpq.c:1050-1127, 285-345, 1674-1688, kernel/osmp.c:84-111, 176-184, 251-339, kernel/iofd.c:300-305. -/
structure Q where
  flags : Flags
  chan : Chan
deriving DecidableEq, Repr

/-- `__mpq_create` after the thread has been started: osmp.c:332-336. -/
def make (f : Flags) : Q := ⟨f, if sigpEvent f then .event else .pipe⟩

/-- aosl_mpq_create_flags (mpq.c:1050-1072): the high 16 bits are refused with EINVAL. -/
def userCreate (f : Flags) : Option Q := if f &&& 0xffff0000#32 ≠ 0#32 then none else some (make f)

/-- `__queue_change_flags` (mpq.c:1075-1093).  `op`: BITOP_OR 0, BITOP_AND 1, BITOP_XOR 2; anything else is ignored.  Always 0. -/
def changeFlags (f : Flags) (op : Int) (bits : Flags) : Flags :=
  if op = 0 then f ||| bits
  else if op = 1 then f &&& bits
  else if op = 2 then f ^^^ bits
  else f

/-- Belongs to the model of kernel/mpq.c:1050-1127, 285-345, 1674-1688, kernel/osmp.c:84-111, 176-184, 251-339, kernel/iofd.c:300-305. -/
def Q.change (q : Q) (op : Int) (bits : Flags) : Q := { q with flags := changeFlags q.flags op bits }

/-- Belongs to the model of kernel/mpq.c:1050-1127, 285-345, 1674-1688, kernel/osmp.c:84-111, 176-184, 251-339, kernel/iofd.c:300-305. -/
def Q.changes (q : Q) : List (Int × Flags) → Q
  | [] => q
  | (op, b) :: l => (q.change op b).changes l

/-- aosl_mpq_get_flags (mpq.c:1112-1127): the flags as `int`. -/
def Q.get (q : Q) : Int := q.flags.toInt

/-- `os_mp_kick` (mpq.c:331-338): NULL event dereferenced (thread.c:340), or a write to AOSL_INVALID_FD. -/
inductive Kick where
  | woken | lost | crash
deriving DecidableEq, Repr

/-- Belongs to the model of kernel/mpq.c:1050-1127, 285-345, 1674-1688, kernel/osmp.c:84-111, 176-184, 251-339, kernel/iofd.c:300-305. -/
def Q.kick (q : Q) : Kick :=
  if sigpEvent q.flags then
    match q.chan with
    | .event => .woken
    | .pipe => .crash
  else
    match q.chan with
    | .pipe => .woken
    | .event => .lost

/-- osmp.c:179-183: the queue's thread sleeps; can it be woken up, are its descriptors watched? -/
inductive Sleep where
  | sleeps (wakeable fds : Bool)
  | crash
deriving DecidableEq, Repr

/-- Belongs to the model of kernel/mpq.c:1050-1127, 285-345, 1674-1688, kernel/osmp.c:84-111, 176-184, 251-339, kernel/iofd.c:300-305. -/
def Q.sleep (q : Q) : Sleep :=
  if sigpEvent q.flags then
    match q.chan with
    | .event => .sleeps true false
    | .pipe => .crash
  else
    match q.chan with
    | .pipe => .sleeps true true
    | .event => .sleeps false true

/-- iofd.c:304-305: may a descriptor be registered? -/
def Q.addFd (q : Q) : Bool := !sigpEvent q.flags

/-- mpq.c:1682-1685, 1746-1749: does the public destroy go through? -/
def Q.destroy (q : Q) : Bool := !noDestroy q.flags

/-- mpq.c:437-469: does queuing to a full queue wait for room? -/
def Q.blocks (q : Q) : Bool := !nonblock q.flags

/-! ## performance callback -/

/-- A thread in aosl_perf_set_callback (mpq.c:164-175). -/
inductive Pc where
  | out
  /-- has the read lock -/
  | in (f : Nat)
  /-- has seen a count of 0 -/
  | seen (f : Nat)
  /-- to unlock; `ok`: callback set -/
  | done (ok : Bool)
deriving DecidableEq, Repr

/-- Data of the model of kernel/mpq.c:1050-1127, 285-345, 1674-1688, kernel/osmp.c:84-111, 176-184, 251-339, kernel/iofd.c:300-305. -/
structure St where
  /-- `__mpq_count` -/
  count : Nat
  /-- `____sys_perf_f`; 0: NULL -/
  perf : Nat
  pc : Nat → Pc
  /-- queues between `get_unused_mpq_id` and `__put_unused_mpq_id`, with the callback that was set when they began -/
  live : List (Nat × Nat)

/-- The state at the beginning, in the model of kernel/mpq.c:1050-1127, 285-345, 1674-1688, kernel/osmp.c:84-111, 176-184, 251-339, kernel/iofd.c:300-305. -/
def St.init : St := ⟨0, 0, fun _ => .out, []⟩

/-- A table changed at one place, as an assignment to one element or one object does; used in the model of kernel/mpq.c:1050-1127, 285-345, 1674-1688, kernel/osmp.c:84-111, 176-184, 251-339, kernel/iofd.c:300-305. -/
def upd (f : Nat → β) (i : Nat) (v : β) : Nat → β := fun j => if j = i then v else f j

inductive Act where
  | lock (t f : Nat)
  | test (t : Nat)
  | write (t : Nat)
  | unlock (t : Nat)
  /-- a queue begins: count + 1 under the write lock (mpq.c:99-150) -/
  | reserve (q : Nat)
  /-- a queue has ended: count - 1 under the write lock (mpq.c:153-160, from `__q_destroy` 751, after its last function) -/
  | release (q : Nat)
deriving DecidableEq, Repr

/-- the threads given have no read lock. Belongs to the model of kernel/mpq.c:1050-1127, 285-345, 1674-1688, kernel/osmp.c:84-111, 176-184, 251-339, kernel/iofd.c:300-305. -/
def St.noReader (s : St) (ts : List Nat) : Bool := ts.all fun t => s.pc t == .out

/-- One step of the threads `ts`; the sections under the write lock are one step, possible when nobody reads. Belongs to the model of kernel/mpq.c:1050-1127, 285-345, 1674-1688, kernel/osmp.c:84-111, 176-184, 251-339, kernel/iofd.c:300-305. -/
def step (ts : List Nat) (s : St) : Act → Option St
  | .lock t f => if t ∈ ts ∧ s.pc t = .out then some { s with pc := upd s.pc t (.in f) } else none
  | .test t =>
    match s.pc t with
    | .in f => some { s with pc := upd s.pc t (if s.count = 0 then .seen f else .done false) }
    | _ => none
  | .write t =>
    match s.pc t with
    | .seen f => some { s with perf := f, pc := upd s.pc t (.done true) }
    | _ => none
  | .unlock t =>
    match s.pc t with
    | .done _ => some { s with pc := upd s.pc t .out }
    | _ => none
  | .reserve q =>
    if s.noReader ts ∧ q ∉ s.live.map (·.1) then some { s with count := s.count + 1, live := (q, s.perf) :: s.live } else none
  | .release q =>
    if s.noReader ts ∧ q ∈ s.live.map (·.1) then some { s with count := s.count - 1, live := s.live.filter (·.1 ≠ q) } else none

/-- The states that can be reached by any history of the model of kernel/mpq.c:1050-1127, 285-345, 1674-1688, kernel/osmp.c:84-111, 176-184, 251-339, kernel/iofd.c:300-305; no code of its own. -/
inductive Reach (ts : List Nat) : St → Prop
  | init : Reach ts St.init
  | step {s s' : St} {a : Act} : Reach ts s → step ts s a = some s' → Reach ts s'

/-- One event after the other, in the model of kernel/mpq.c:1050-1127, 285-345, 1674-1688, kernel/osmp.c:84-111, 176-184, 251-339, kernel/iofd.c:300-305; no code of its own. -/
def run (ts : List Nat) (s : St) : List Act → Option St
  | [] => some s
  | a :: l => (step ts s a).bind fun s' => run ts s' l

/-- mpq.c:550, 559-560: the two reads of the callback around one function executed by a queue. `a` and `b`: its values; what happens: measured and
    reported, or not; `garbage`: reported without a starting time. -/
inductive Report where
  | none | measured | garbage
deriving DecidableEq, Repr

/-- Belongs to the model of kernel/mpq.c:1050-1127, 285-345, 1674-1688, kernel/osmp.c:84-111, 176-184, 251-339, kernel/iofd.c:300-305. -/
def report (a b : Nat) : Report := if b = 0 then .none else if a = 0 then .garbage else .measured

end Verif.QFlags
