/-
  Model of the life of one queue object, with the thread that creates it, any number of threads that wait for its end, and other users:
  kernel/mpq.c:799-851 (__q_wait_destroy), 853-939 (__q_create), 952-998 (mpq_thread_entry), 1000-1048 (__mpq_create), 1050-1062,
  1639-1692 (__mpq_destroy, mpq_destroy), 1699-1764 (waiting), 213-266 (references by handle).

  One action is one critical section or one access.  What the queue executes is Verif.Mpq's subject; here it only matters that functions
  executed by the queue, and other threads, may ask for its end.  Spurious wake-ups are included.
-/
namespace Verif.QWait

/-- Where a thread is in `mpq_do_wait` (mpq.c:1733-1759).  `issue`: aosl_mpq_destroy_wait, otherwise aosl_mpq_wait. -/
inductive Pc where
  | out
  /-- after `__mpq_get` (1738) and the tests -/
  | got (issue : Bool)
  /-- entry initialised and linked (1699-1717) -/
  | added (issue : Bool)
  /-- after the possible `__mpq_destroy` (1752-1753) -/
  | asked
  /-- reference given back (1755); about to lock the entry's mutex, or woken up -/
  | waits
  /-- has the entry's mutex (1722) -/
  | locked
  /-- in `k_cond_wait` (1724) -/
  | sleeps
  /-- mutex and condition destroyed, the stack frame with the entry is gone (1726-1730) -/
  | returned
deriving DecidableEq, Repr

/-- The queue's thread. -/
inductive Ph where
  /-- before `__q_create` -/
  | boot
  /-- `__q_create` has failed, `fini` called (973-979) -/
  | failed
  /-- in the `init` callback (968) -/
  | initing
  /-- `init` has succeeded, the creator not yet told -/
  | ready
  /-- in the loop (989-996) -/
  | loop
  /-- uninstalled (803-804), executing what is left until nobody has a reference; `late`: `init` has failed, the creator is told afterwards -/
  | drain (late : Bool)
  /-- `fini` called, head of the list of waiters read (826-838) -/
  | finished (late : Bool)
  /-- the object is freed; loop 842-850 over the waiters still to be told -/
  | notify (late : Bool) (l : List Nat)
  /-- has the mutex of the entry of waiter `t` -/
  | nlocked (late : Bool) (t : Nat) (l : List Nat)
  /-- has set the result and broadcast -/
  | ntold (late : Bool) (t : Nat) (l : List Nat)
  | ended
deriving DecidableEq, Repr

/-- The creating thread, in `__mpq_create` and its caller. -/
inductive Cr where
  /-- in 1031-1034 -/
  | waits
  /-- told: queue (`true`) or NULL -/
  | told (ok : Bool)
  /-- returned: the handle (`true`) or -1 -/
  | returned (ok : Bool)
deriving DecidableEq, Repr

/-- Data of the model of kernel/mpq.c:799-851. -/
structure St where
  ph : Ph
  cr : Cr
  /-- the object exists -/
  alive : Bool
  installed : Bool
  usage : Nat
  term : Bool
  /-- the list from `destroy_wait_head` -/
  list : List Nat
  pc : Nat → Pc
  /-- `sync.result == __MPQ_DESTROY_DONE` of the entry of waiter `t` -/
  res : Nat → Bool
  /-- waiter `t` was asleep at a broadcast -/
  sig : Nat → Bool
  /-- owner of the entry's mutex: the queue's thread (`true`) or the waiter -/
  mtx : Nat → Option Bool
  /-- references of others -/
  others : Nat
  /-- calls of `fini` -/
  fini : Nat
  /-- for the statements: the threads in `mpq_do_wait` that have a reference -/
  holders : List Nat
  /-- the object was accessed after it was freed, by a waiter or another user -/
  uaf : Bool
  /-- the entry of a waiter that has returned was accessed -/
  dead : Bool
  /-- the creator accessed the freed object -/
  uafC : Bool

/-- The state at the beginning, in the model of kernel/mpq.c:799-851. -/
def St.init : St where
  ph := .boot
  cr := .waits
  alive := false
  installed := false
  usage := 0
  term := false
  list := []
  pc := fun _ => .out
  res := fun _ => false
  sig := fun _ => false
  mtx := fun _ => none
  others := 0
  fini := 0
  holders := []
  uaf := false
  dead := false
  uafC := false

/-- Point update. Belongs to the model of kernel/mpq.c:799-851. -/
def upd (f : Nat → β) (i : Nat) (v : β) : Nat → β := fun j => if j = i then v else f j

inductive Act where
  /-- `__q_create` succeeds or fails -/
  | create (ok : Bool)
  /-- `init` returns -/
  | initDone (ok : Bool)
  /-- the creator is told (981-986) -/
  | tell
  /-- the queue's own functions, or `init`, ask for its end: aosl_mpq_destroy (aosl_mpq_this ()) -/
  | selfDestroy
  /-- loop left, handle uninstalled -/
  | uninstall
  /-- `usage` is 1: `fini` is called and the list read -/
  | drained
  /-- `__q_destroy` -/
  | free
  /-- lock, tell and unlock the next waiter -/
  | nLock
  | nTell
  | nUnlock
  | nEnd
  /-- the creator reads `q->qid` (1058-1061), or returns an error -/
  | cRead
  /-- waiters -/
  | get (t : Nat) (issue : Bool)
  | add (t : Nat)
  | ask (t : Nat)
  | put (t : Nat)
  | lock (t : Nat)
  | test (t : Nat)
  | wake (t : Nat)
  | spurious (t : Nat)
  /-- other users: reference by handle, aosl_mpq_destroy, reference given back -/
  | oGet
  | oDestroy
  | oPut
deriving DecidableEq, Repr

/-- One step; `none`: not possible now. -/
def step (s : St) : Act → Option St
  | .create ok =>
    if s.ph = .boot then
      -- mpq.c:956, 914-922: usage 1, id installed
      if ok then some { s with ph := .initing, alive := true, installed := true, usage := 1 }
      else some { s with ph := .failed, fini := s.fini + 1 }
    else none
  | .initDone ok =>
    if s.ph = .initing then
      if ok then some { s with ph := .ready }
      -- mpq.c:968-972 with 803-804
      else some { s with ph := .drain true, term := true, installed := false }
    else none
  | .tell =>
    if s.ph = .ready then some { s with ph := .loop, cr := .told true }
    else if s.ph = .failed then some { s with ph := .ended, cr := .told false }
    else none
  | .selfDestroy => if s.ph = .initing ∨ s.ph = .loop then some { s with term := true } else none
  | .uninstall => if s.ph = .loop ∧ s.term = true then some { s with ph := .drain false, installed := false } else none
  | .drained =>
    match s.ph with
    | .drain late => if s.usage > 1 then none else some { s with ph := .finished late, fini := s.fini + 1 }
    | _ => none
  | .free =>
    match s.ph with
    | .finished late => some { s with ph := .notify late s.list, alive := false }
    | _ => none
  | .nLock =>
    match s.ph with
    | .notify late (t :: l) =>
      -- `wait->next` is read and the mutex locked
      if s.mtx t = none then some { s with ph := .nlocked late t l, mtx := upd s.mtx t (some true), dead := s.dead || decide (s.pc t = .returned) }
      else none
    | _ => none
  | .nTell =>
    match s.ph with
    | .nlocked late t l =>
      some { s with
        ph := .ntold late t l
        res := upd s.res t true
        sig := if s.pc t = .sleeps then upd s.sig t true else s.sig
        dead := s.dead || decide (s.pc t = .returned) }
    | _ => none
  | .nUnlock =>
    match s.ph with
    | .ntold late t l => some { s with ph := .notify late l, mtx := upd s.mtx t none, dead := s.dead || decide (s.pc t = .returned) }
    | _ => none
  | .nEnd =>
    match s.ph with
    | .notify late [] => some { s with ph := .ended, cr := if late then .told false else s.cr }
    | _ => none
  | .cRead =>
    match s.cr with
    | .told ok => some { s with cr := .returned ok, uafC := s.uafC || (ok && !s.alive) }
    | _ => none
  | .get t issue =>
    -- only a handle that resolves gets this far, otherwise EINVAL (1738-1740)
    if s.pc t = .out ∧ s.installed = true then
      some { s with pc := upd s.pc t (.got issue), usage := s.usage + 1, holders := t :: s.holders }
    else none
  | .add t =>
    match s.pc t with
    | .got issue => some { s with
        pc := upd s.pc t (.added issue)
        list := s.list ++ [t]
        res := upd s.res t false
        sig := upd s.sig t false
        mtx := upd s.mtx t none
        uaf := s.uaf || !s.alive }
    | _ => none
  | .ask t =>
    match s.pc t with
    | .added issue => some { s with pc := upd s.pc t .asked, term := s.term || issue, uaf := s.uaf || (issue && !s.alive) }
    | _ => none
  | .put t =>
    if s.pc t = .asked then
      some { s with pc := upd s.pc t .waits, usage := s.usage - 1, holders := s.holders.erase t, uaf := s.uaf || !s.alive }
    else none
  | .lock t => if s.pc t = .waits ∧ s.mtx t = none then some { s with pc := upd s.pc t .locked, mtx := upd s.mtx t (some false) } else none
  | .test t =>
    if s.pc t = .locked then
      if s.res t then some { s with pc := upd s.pc t .returned, mtx := upd s.mtx t none }
      else some { s with pc := upd s.pc t .sleeps, mtx := upd s.mtx t none, sig := upd s.sig t false }
    else none
  | .wake t => if s.pc t = .sleeps ∧ s.sig t = true then some { s with pc := upd s.pc t .waits } else none
  | .spurious t => if s.pc t = .sleeps then some { s with pc := upd s.pc t .waits } else none
  | .oGet => if s.installed then some { s with usage := s.usage + 1, others := s.others + 1 } else none
  | .oDestroy => if s.others > 0 then some { s with term := true, uaf := s.uaf || !s.alive } else none
  | .oPut => if s.others > 0 then some { s with usage := s.usage - 1, others := s.others - 1, uaf := s.uaf || !s.alive } else none

/-- One event after the other, in the model of kernel/mpq.c:799-851; no code of its own. -/
def run (s : St) : List Act → Option St
  | [] => some s
  | a :: l => (step s a).bind fun s' => run s' l

/-- The states that can be reached by any history of the model of kernel/mpq.c:799-851; no code of its own. -/
inductive Reach : St → Prop
  | init : Reach St.init
  | step {s s' : St} {a : Act} : Reach s → step s a = some s' → Reach s'

/-- mpq.c:1736-1748, 1674-1688: which calls are refused. `found`: the handle resolves; `self`: it is the caller's own queue; `na`: the flag
    AOSL_MPQ_FLAG_DESTROY_NOT_ALLOWED is set.  Results: 0 = goes on, otherwise the error. -/
inductive Err where
  | einval | ebusy | eperm
deriving DecidableEq, Repr

/-- Belongs to the model of kernel/mpq.c:799-851. -/
def waitAdmit (found self na issue check : Bool) : Option Err :=
  if !found then some .einval
  else if self then some .ebusy
  else if issue && check && na then some .eperm
  else none

/-- Belongs to the model of kernel/mpq.c:799-851. -/
def destroyAdmit (found na check : Bool) : Option Err :=
  if !found then some .einval
  else if check && na then some .eperm
  else none

end Verif.QWait
