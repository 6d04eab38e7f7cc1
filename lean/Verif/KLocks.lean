/-
  Models of kernel/thread.c: k_rwlock (208-315), k_event (318-388), k_static_lock (390-427), and of the
  condition variable of lib/cond.c.
-/
namespace Verif.KLocks

/-! ## k_rwlock, kernel/thread.c:208-315

The raw lock is taken at the level of its specification (theorems C55 of RwLockProps.lean): the read lock is
granted only when no thread has the write lock, the write lock only when no thread has either; trywrlock may
also fail for no reason.  `lk` is a mutex.  `ver` (ghost) counts the acquisitions of the write lock, `snap t`
is its value when thread `t` last obtained the read lock (or began to downgrade). -/
namespace Rw

inductive PC where
  | idle
  /-- read lock held -/
  | holdR
  /-- k_rwlock_wrlock / k_rwlock_trywrlock: `lk` held, about to call k_raw_rwlock_trywrlock (228-229, 259-260) -/
  | wTry
  /-- write lock held; `up`: obtained by k_rwlock_rd2wrlock -/
  | holdW (up : Bool)
  /-- k_rwlock_wrunlock (272-276): raw lock released, about to release `lk` -/
  | wUnl
  /-- k_rwlock_rd2wrlock (280-296): read lock held, trying `lk` -/
  | up1
  /-- before 298: `lk` obtained, rd2wrlock_count not yet set -/
  | up2
  /-- 299: rd2wrlock_count = 1 -/
  | up3
  /-- 300: read lock released, waiting for the raw write lock -/
  | up4
  /-- k_rwlock_wr2rdlock (303-309): raw write lock released -/
  | dn1
  /-- 306: raw read lock obtained -/
  | dn2
  /-- 307: rd2wrlock_count = 0 -/
  | dn3
deriving DecidableEq, Repr

/-- Data of the model of kernel/thread.c:208-315. -/
structure St where
  lk : Option Nat
  flag : Bool
  pc : Nat → PC
  ver : Nat
  snap : Nat → Nat
  aborted : Bool

/-- The state at the beginning, in the model of kernel/thread.c:208-315. -/
def St.init : St := ⟨none, false, fun _ => .idle, 0, fun _ => 0, false⟩

/-- A table changed at one place, as an assignment to one element or one object does; used in the model of kernel/thread.c:208-315. -/
def upd {α} (f : Nat → α) (i : Nat) (v : α) : Nat → α := fun j => if j = i then v else f j

/-- The thread has the raw read lock. Belongs to the model of kernel/thread.c:208-315. -/
def rawR : PC → Bool
  | .holdR => true | .up1 => true | .up2 => true | .up3 => true | .dn2 => true | .dn3 => true
  | _ => false

/-- The thread has the raw write lock. Belongs to the model of kernel/thread.c:208-315. -/
def rawW : PC → Bool
  | .holdW _ => true
  | _ => false

/-- Belongs to the model of kernel/thread.c:208-315. -/
def noW (s : St) : Prop := ∀ j, rawW (s.pc j) = false
/-- Belongs to the model of kernel/thread.c:208-315. -/
def noneHeld (s : St) : Prop := ∀ j, rawW (s.pc j) = false ∧ rawR (s.pc j) = false

inductive Step : St → St → Prop where
  /-- k_rwlock_rdlock / tryrdlock, 215-223 -/
  | rdlock {s} (i) (h : s.pc i = .idle) (hw : noW s) (ha : s.aborted = false) :
      Step s { s with pc := upd s.pc i .holdR, snap := upd s.snap i s.ver }
  /-- k_rwlock_rdunlock, 267-270 -/
  | rdunlock {s} (i) (h : s.pc i = .holdR) (ha : s.aborted = false) :
      Step s { s with pc := upd s.pc i .idle }
  /-- 228 and 259 -/
  | wrlock {s} (i) (h : s.pc i = .idle) (hl : s.lk = none) (ha : s.aborted = false) :
      Step s { s with pc := upd s.pc i .wTry, lk := some i }
  /-- 229-230 and 260 -/
  | wtryOk {s} (i) (h : s.pc i = .wTry) (hw : noneHeld s) (ha : s.aborted = false) :
      Step s { s with pc := upd s.pc i (.holdW false), ver := s.ver + 1 }
  /-- 250 and 262; the loop of k_rwlock_wrlock starts over -/
  | wtryFail {s} (i) (h : s.pc i = .wTry) (ha : s.aborted = false) :
      Step s { s with pc := upd s.pc i .idle, lk := none }
  /-- 274 -/
  | wrunlock {s} (i) (u) (h : s.pc i = .holdW u) (ha : s.aborted = false) :
      Step s { s with pc := upd s.pc i .wUnl }
  /-- 275 -/
  | wrunlock2 {s} (i) (h : s.pc i = .wUnl) (ha : s.aborted = false) :
      Step s { s with pc := upd s.pc i .idle, lk := none }
  /-- call of k_rwlock_rd2wrlock -/
  | up {s} (i) (h : s.pc i = .holdR) (ha : s.aborted = false) :
      Step s { s with pc := upd s.pc i .up1 }
  /-- 281 -/
  | upLk {s} (i) (h : s.pc i = .up1) (hl : s.lk = none) (ha : s.aborted = false) :
      Step s { s with pc := upd s.pc i .up2, lk := some i }
  /-- 284-292: the trylock failed and rd2wrlock_count is set -/
  | upAbort {s} (i) (h : s.pc i = .up1) (hl : s.lk ≠ none) (hf : s.flag = true) (ha : s.aborted = false) :
      Step s { s with aborted := true }
  /-- 298 -/
  | upFlag {s} (i) (h : s.pc i = .up2) (ha : s.aborted = false) :
      Step s { s with pc := upd s.pc i .up3, flag := true }
  /-- 299 -/
  | upRel {s} (i) (h : s.pc i = .up3) (ha : s.aborted = false) :
      Step s { s with pc := upd s.pc i .up4 }
  /-- 300 -/
  | upAcq {s} (i) (h : s.pc i = .up4) (hw : noneHeld s) (ha : s.aborted = false) :
      Step s { s with pc := upd s.pc i (.holdW true), ver := s.ver + 1 }
  /-- 305; also after a plain wrlock -/
  | down {s} (i) (u) (h : s.pc i = .holdW u) (ha : s.aborted = false) :
      Step s { s with pc := upd s.pc i .dn1, snap := upd s.snap i s.ver }
  /-- 306 -/
  | downAcq {s} (i) (h : s.pc i = .dn1) (hw : noW s) (ha : s.aborted = false) :
      Step s { s with pc := upd s.pc i .dn2 }
  /-- 307 -/
  | downFlag {s} (i) (h : s.pc i = .dn2) (ha : s.aborted = false) :
      Step s { s with pc := upd s.pc i .dn3, flag := false }
  /-- 308 -/
  | downLk {s} (i) (h : s.pc i = .dn3) (ha : s.aborted = false) :
      Step s { s with pc := upd s.pc i .holdR, lk := none }

/-- The states that can be reached by any history of the model of kernel/thread.c:208-315; no code of its own. -/
inductive Reach : St → Prop where
  | init : Reach St.init
  | step {s s'} (h : Reach s) (hs : Step s s') : Reach s'

end Rw

/-! ## k_event, kernel/thread.c:318-388

Threads differ only in identity, so the model counts them.  Each critical section of `event->mutex` is one
step. -/
namespace Event

/-- `event->result`. Belongs to the model of kernel/thread.c:318-388. -/
inductive Sig where
  | none
  | set
  | pulse
deriving DecidableEq, Repr

/-- `blocked`: threads in k_cond_wait without a signal; `woken`: threads signalled, about to retake the
    mutex.  `pulses`, `sets`: calls that changed the event; `returned`: finished waits. Belongs to the model of kernel/thread.c:318-388. -/
structure St where
  result : Sig
  blocked : Nat
  woken : Nat
  pulses : Nat
  sets : Nat
  returned : Nat
deriving DecidableEq, Repr

/-- The state at the beginning, in the model of kernel/thread.c:318-388. -/
def St.init : St := ⟨.none, 0, 0, 0, 0, 0⟩

/-- The calls and events of the model of kernel/thread.c:318-388. -/
inductive Op where
  | set
  | pulse
  | reset
  /-- a call of k_event_wait up to its return or to the wait -/
  | wait
  /-- a signalled thread retakes the mutex and returns -/
  | wake
  /-- the condition variable wakes a thread without a signal -/
  | spurious
deriving DecidableEq, Repr

def step (s : St) : Op → Option St
  -- k_event_set, 328-336
  | .set =>
    if s.result ≠ .set then
      some { s with result := .set, woken := s.woken + s.blocked, blocked := 0, sets := s.sets + 1 }
    else some s
  -- k_event_pulse, 338-346
  | .pulse =>
    if s.result ≠ .pulse then
      if 0 < s.blocked then
        some { s with result := .pulse, woken := s.woken + 1, blocked := s.blocked - 1, pulses := s.pulses + 1 }
      else some { s with result := .pulse, pulses := s.pulses + 1 }
    else some s
  -- k_event_reset, 377-382
  | .reset => some { s with result := .none }
  -- k_event_wait, 348-357
  | .wait =>
    match s.result with
    | .none => some { s with blocked := s.blocked + 1 }
    | .set => some { s with returned := s.returned + 1 }
    | .pulse => some { s with result := .none, returned := s.returned + 1 }
  -- 353-356, after k_cond_wait: the test of line 351 is not repeated
  | .wake =>
    if 0 < s.woken then
      some { s with woken := s.woken - 1, returned := s.returned + 1
                    result := if s.result = .pulse then .none else s.result }
    else none
  | .spurious =>
    if 0 < s.blocked then some { s with blocked := s.blocked - 1, woken := s.woken + 1 } else none

/-- One event after the other, in the model of kernel/thread.c:318-388; no code of its own. -/
def run : St → List Op → Option St
  | s, [] => some s
  | s, o :: l => (step s o).bind fun s' => run s' l

end Event

/-! ## k_static_lock_init, kernel/thread.c:390-427 -/
namespace StaticLock

/-- The cases distinguished in the model of kernel/thread.c:390-427. -/
inductive State where
  | uninit
  | initializing
  | initialized
deriving DecidableEq, Repr

/-- Threads are counted: `initing` inside aosl_hal_static_mutex_init, `pubOk` / `pubErr` after it succeeded /
    failed and before the store of the new state, `spin` in the loop 414-420.  `mutex`: the underlying mutex
    is initialised; `inits`: how often it was; `falseOk`: calls that returned 0 while it was not. -/
structure St where
  state : State
  initing : Nat
  pubOk : Nat
  pubErr : Nat
  spin : Nat
  mutex : Bool
  inits : Nat
  okRet : Nat
  falseOk : Nat
deriving DecidableEq, Repr

/-- The state at the beginning, in the model of kernel/thread.c:390-427. -/
def St.init : St := ⟨.uninit, 0, 0, 0, 0, false, 0, 0, 0⟩

/-- Belongs to the model of kernel/thread.c:390-427. -/
def St.retOk (s : St) : St :=
  { s with okRet := s.okRet + 1, falseOk := if s.mutex then s.falseOk else s.falseOk + 1 }

inductive Op where
  /-- a call: the compare-and-exchange 393-395 -/
  | call
  /-- aosl_hal_static_mutex_init (399) succeeds / fails -/
  | halOk
  | halErr
  /-- the store 408 / 403 and the return -/
  | pubOk
  | pubErr
  /-- a spinning thread reads the state and leaves the loop -/
  | leave
  /-- a spinning thread gives up after 100 tries, 415-418 -/
  | giveUp
deriving DecidableEq, Repr

/-- What one event does, in the model of kernel/thread.c:390-427. -/
def step (s : St) : Op → Option St
  | .call =>
    match s.state with
    | .uninit => some { s with state := .initializing, initing := s.initing + 1 }
    | .initializing => some { s with spin := s.spin + 1 }
    | .initialized => some s.retOk
  | .halOk =>
    if 0 < s.initing then
      some { s with initing := s.initing - 1, pubOk := s.pubOk + 1, mutex := true, inits := s.inits + 1 }
    else none
  | .halErr =>
    if 0 < s.initing then some { s with initing := s.initing - 1, pubErr := s.pubErr + 1 } else none
  | .pubOk =>
    if 0 < s.pubOk then some ({ s with pubOk := s.pubOk - 1, state := .initialized }.retOk) else none
  | .pubErr =>
    if 0 < s.pubErr then some { s with pubErr := s.pubErr - 1, state := .uninit } else none
  | .leave =>
    if 0 < s.spin ∧ s.state ≠ .initializing then some ({ s with spin := s.spin - 1 }.retOk) else none
  | .giveUp =>
    if 0 < s.spin ∧ s.state = .initializing then some { s with spin := s.spin - 1 } else none

/-- One event after the other, in the model of kernel/thread.c:390-427; no code of its own. -/
def run : St → List Op → Option St
  | s, [] => some s
  | s, o :: l => (step s o).bind fun s' => run s' l

end StaticLock

/-! ## Condition variable, lib/cond.c (built with CONFIG_AOSL_COND)

Waiters in list order; `posts` is the count of the semaphore of each (lib/cond.c:29-32). -/
namespace Cond

/-- Data of the model of lib/cond.c:29-32. -/
structure Waiter where
  id : Nat
  posts : Nat
deriving DecidableEq, Repr

/-- `signals`: signals sent while at least one waiter was in the list; `woken`: waiters that left. Belongs to the model of lib/cond.c:29-32. -/
structure St where
  list : List Waiter
  signals : Nat
  woken : List Nat
deriving DecidableEq, Repr

/-- The state at the beginning, in the model of lib/cond.c:29-32. -/
def St.init : St := ⟨[], 0, []⟩

inductive Op where
  /-- thread `id` enters __k_cond_wait_with_timeo, 59-66 -/
  | wait (id : Nat)
  /-- k_cond_signal, 34-42 -/
  | signal
  /-- k_cond_broadcast, 44-52 -/
  | broadcast
  /-- the semaphore of `id` lets it through and it unlinks itself, 71-84 -/
  | leave (id : Nat)
deriving DecidableEq, Repr

/-- What one event does, in the model of lib/cond.c:29-32. -/
def step (s : St) : Op → Option St
  | .wait id => if (s.list.map (·.id)).contains id then none else some { s with list := s.list ++ [⟨id, 0⟩] }
  | .signal =>
    match s.list with
    | [] => some s
    | w :: l => some { s with list := { w with posts := w.posts + 1 } :: l, signals := s.signals + 1 }
  | .broadcast => some { s with list := s.list.map fun w => { w with posts := w.posts + 1 } }
  | .leave id =>
    match s.list.find? (fun w => w.id = id) with
    | some w =>
      if 0 < w.posts then
        some { s with list := s.list.filter (fun w => w.id ≠ id), woken := s.woken ++ [id] }
      else none
    | none => none

/-- One event after the other, in the model of lib/cond.c:29-32; no code of its own. -/
def run : St → List Op → Option St
  | s, [] => some s
  | s, o :: l => (step s o).bind fun s' => run s' l

end Cond

end Verif.KLocks
