/-
  Model of the raw read-write lock: include/kernel/rwlock-generic.h (fast paths) and lib/rwlockimpl.c
  (slow paths and wake-up).  Any number of threads are interleaved; the granularity of a step is one
  atomic operation on `count`.  Work on the wait list happens under `wait_lock`, so it is fused with the
  neighbouring operation on `count`; the lock itself is modelled.

  `B` is RWLOCK_ACTIVE_MASK + 1, rwlock-generic.h:19-23 (2^32, or 2^16 on 32-bit targets).  `count` is an
  unbounded integer here; the theorem `C55_no_overflow` shows that it stays inside intptr_t.
  Memory order is sequentially consistent (the code uses full atomics and the mutex).
-/
namespace Verif.RwLock

/-- `enum rwlock_wake_type`, lib/rwlockimpl.c:34-38. -/
inductive Wake where
  | any
  | readers
  | readOwned
deriving DecidableEq, Repr

/-- Where a thread running `__rwlock_do_wake` (lib/rwlockimpl.c:40-103) is. -/
inductive WSt where
  /-- rwlock_wake / rwlock_downgrade_wake called, `wait_lock` not yet taken (195-219) -/
  | pend (w : Wake)
  /-- in the critical section, line 47 -/
  | start (w : Wake)
  /-- label try_reader_grant (57-58): about to add the reader bias -/
  | try_
  /-- line 60: the bias was added although a writer is active or trying; about to take it back -/
  | undo
  /-- line 67: the grant is certain; `adj` = the bias was added -/
  | grant (adj : Bool)
  /-- loop 86-94: about to clear `waiter->event` of the first thread of the list -/
  | notify (l : List Nat)
  /-- line 93: about to pulse the event of thread `t` (its `g`-th slow path) -/
  | pulse (t g : Nat) (l : List Nat)
deriving DecidableEq, Repr

/-- What the thread does after `__rwlock_do_wake`. -/
inductive Cont where
  /-- return from an unlock -/
  | toIdle
  /-- return from a downgrade: the thread holds the read lock -/
  | toHoldR
  /-- lib/rwlockimpl.c:131-143, wait for the read lock -/
  | toRWait
  /-- lib/rwlockimpl.c:170, with the value of the local variable `count` -/
  | toWLoop (c : Int)
deriving DecidableEq, Repr

inductive PC where
  | idle
  | holdR
  | holdW
  /-- rwlock_read_lock_failed called, lib/rwlockimpl.c:105-118 -/
  | rSlow
  /-- about to test `waiter.event == NULL`, 134-138 -/
  | rChk
  /-- in k_event_wait, 140 -/
  | rBlk
  /-- rwlock_write_lock_failed called, 145-158 -/
  | wSlow
  /-- top of the loop 171 with local `count`, `wait_lock` held -/
  | wLoop (c : Int)
  /-- in k_event_wait, 183 -/
  | wBlk
  /-- about to take wait_lock and reload count, 184-185 -/
  | wRelock
  | wake (w : WSt) (k : Cont)
deriving DecidableEq, Repr

/-- `q`: the wait list, `(thread, is a writer)`; `lk`: the holder of `wait_lock`.  Per thread: `gr` the
    read lock was given to the waiter (count adjusted), `nt` its `waiter.event` is NULL, `sg` its event has
    a pulse pending, `gen` number of its slow read paths finished (its event is destroyed at the end of
    each, 142).  `ub`: a destroyed event was used. -/
structure St where
  count : Int
  lk : Option Nat
  q : List (Nat × Bool)
  pc : Nat → PC
  gr : Nat → Bool
  nt : Nat → Bool
  sg : Nat → Bool
  gen : Nat → Nat
  ub : Bool

/-- rwlock_init, lib/rwlockimpl.c:16-21. -/
def St.init : St :=
  ⟨0, none, [], fun _ => .idle, fun _ => false, fun _ => false, fun _ => false, fun _ => 0, false⟩

/-- A table changed at one place, as an assignment to one element or one object does; used in the model of rwlock-generic.h:19-23. -/
def upd {α} (f : Nat → α) (i : Nat) (v : α) : Nat → α := fun j => if j = i then v else f j

/-- Belongs to the model of rwlock-generic.h:19-23. -/
def St.setpc (s : St) (i : Nat) (p : PC) : St := { s with pc := upd s.pc i p }

/-- Leave the critical section of `wait_lock`. Belongs to the model of rwlock-generic.h:19-23. -/
def St.release (s : St) : St := { s with lk := none }

/-- Return from `__rwlock_do_wake`: lines 128-131, 168-170, 203-206, 216-219. -/
def St.finish (s : St) (i : Nat) : Cont → St
  | .toIdle => (s.setpc i .idle).release
  | .toHoldR => (s.setpc i .holdR).release
  | .toRWait => (s.setpc i .rChk).release
  | .toWLoop c => s.setpc i (.wLoop c)

/-- The leading readers of the wait list, loop lib/rwlockimpl.c:68-76. -/
def leading (q : List (Nat × Bool)) : List Nat := (q.takeWhile (fun e => !e.2)).map (·.1)

/-- Belongs to the model of rwlock-generic.h:19-23. -/
def rest (q : List (Nat × Bool)) : List (Nat × Bool) := q.dropWhile (fun e => !e.2)

/-- What thread `i` does next where it has a choice. -/
inductive Act where
  | rdlock
  | tryrdlock
  | wrlock
  | trywrlock
  | rdunlock
  | wrunlock
  | downgrade
  /-- go on inside the call it is in -/
  | run
  /-- return from k_event_wait without a pulse (the wait of kernel/thread.c:348-357 is not a loop) -/
  | spurious
deriving DecidableEq, Repr

/-- One step of `__rwlock_do_wake` by thread `i`, lib/rwlockimpl.c:40-103, called from 195-219. -/
def stepWake (B : Int) (s : St) (i : Nat) (k : Cont) : WSt → Option St
  | .pend w =>
    if s.lk ≠ none then none
    else if s.q = [] then some ({ s with lk := some i }.finish i k)
    else some ({ s with lk := some i }.setpc i (.wake (.start w) k))
  | .start w =>
    match s.q with
    | [] => none
    | (t, true) :: _ =>
      if w = .any then some ({ s with sg := upd s.sg t true }.finish i k)
      else some (s.finish i k)
    | (_, false) :: _ =>
      if w = .readOwned then some (s.setpc i (.wake (.grant false) k))
      else some (s.setpc i (.wake .try_ k))
  | .try_ =>
    -- 58-59: oldcount = the value before the addition
    let s' := { s with count := s.count + 1 }
    if s.count < -B then some (s'.setpc i (.wake .undo k))
    else some (s'.setpc i (.wake (.grant true) k))
  | .undo =>
    -- 60-63
    let s' := { s with count := s.count - 1 }
    if (s.count - 1) % B ≠ 0 then some (s'.finish i k)
    else some (s'.setpc i (.wake .try_ k))
  | .grant adj =>
    -- 67-83, and 100-102 (unlinking the woken waiters)
    let ts := leading s.q
    some { s with
      count := s.count + ts.length - (if adj then 1 else 0) + (if rest s.q = [] then B else 0)
      q := rest s.q
      gr := fun t => if t ∈ ts then true else s.gr t
      pc := upd s.pc i (.wake (.notify ts) k) }
  | .notify [] => some (s.finish i k)
  | .notify (t :: l) =>
    some { s with nt := upd s.nt t true, pc := upd s.pc i (.wake (.pulse t (s.gen t) l) k) }
  | .pulse t g l =>
    if s.gen t = g then
      some ({ s with sg := upd s.sg t true }.setpc i (.wake (.notify l) k))
    else some { s with ub := true }

/-- One step of thread `i`; `none`: the action is not possible (or the thread is blocked). -/
def step (B : Int) (s : St) (i : Nat) (a : Act) : Option St :=
  if s.ub then none else
  match s.pc i, a with
  -- __rwlock_rdlock, rwlock-generic.h:30-34
  | .idle, .rdlock =>
    let s' := { s with count := s.count + 1 }
    if s.count + 1 ≤ 0 then some (s'.setpc i .rSlow) else some (s'.setpc i .holdR)
  -- __rwlock_tryrdlock, rwlock-generic.h:36-48 (a failed compare-and-exchange only repeats)
  | .idle, .tryrdlock =>
    if s.count ≥ 0 then some ({ s with count := s.count + 1 }.setpc i .holdR) else some s
  -- __rwlock_wrlock, rwlock-generic.h:50-57
  | .idle, .wrlock =>
    let s' := { s with count := s.count + (-B + 1) }
    if s.count + (-B + 1) ≠ -B + 1 then some (s'.setpc i .wSlow) else some (s'.setpc i .holdW)
  -- __rwlock_trywrlock, rwlock-generic.h:59-64
  | .idle, .trywrlock =>
    if s.count = 0 then some ({ s with count := -B + 1 }.setpc i .holdW) else some s
  -- __rwlock_rdunlock, rwlock-generic.h:66-72
  | .holdR, .rdunlock =>
    let s' := { s with count := s.count - 1 }
    if s.count - 1 < -1 ∧ (s.count - 1) % B = 0 then some (s'.setpc i (.wake (.pend .any) .toIdle))
    else some (s'.setpc i .idle)
  -- __rwlock_wrunlock, rwlock-generic.h:74-78
  | .holdW, .wrunlock =>
    let s' := { s with count := s.count - (-B + 1) }
    if s.count - (-B + 1) < 0 then some (s'.setpc i (.wake (.pend .any) .toIdle))
    else some (s'.setpc i .idle)
  -- __rwlock_wr2rd_lock, rwlock-generic.h:80-87
  | .holdW, .downgrade =>
    let s' := { s with count := s.count + B }
    if s.count + B < 0 then some (s'.setpc i (.wake (.pend .readOwned) .toHoldR))
    else some (s'.setpc i .holdR)
  -- rwlock_read_lock_failed, lib/rwlockimpl.c:105-131
  | .rSlow, .run =>
    if s.lk ≠ none then none
    else
      let adj : Int := if s.q = [] then -1 - B else -1
      let c := s.count + adj
      let s' := { s with count := c, q := s.q ++ [(i, false)], lk := some i, sg := upd s.sg i false }
      if c = -B ∨ (c > -B ∧ s.q = []) then some (s'.setpc i (.wake (.start .any) .toRWait))
      else some ((s'.setpc i .rChk).release)
  -- 134-143
  | .rChk, .run =>
    if s.nt i then
      some { s with
        pc := upd s.pc i .holdR, gr := upd s.gr i false, nt := upd s.nt i false
        gen := upd s.gen i (s.gen i + 1) }
    else some (s.setpc i .rBlk)
  | .rBlk, .run =>
    if s.sg i then some ({ s with sg := upd s.sg i false }.setpc i .rChk) else none
  | .rBlk, .spurious => some (s.setpc i .rChk)
  -- rwlock_write_lock_failed, lib/rwlockimpl.c:145-168
  | .wSlow, .run =>
    if s.lk ≠ none then none
    else
      let adj : Int := if s.q = [] then -(-B + 1) - B else -(-B + 1)
      let c := s.count + adj
      let s' := { s with count := c, q := s.q ++ [(i, true)], lk := some i, sg := upd s.sg i false }
      if c > -B ∧ s.q ≠ [] then some (s'.setpc i (.wake (.start .readers) (.toWLoop c)))
      else some (s'.setpc i (.wLoop c))
  -- 171-192
  | .wLoop c, .run =>
    if c % B = 0 ∧ s.count = -B then
      let q' := s.q.filter (fun e => e.1 ≠ i)
      some (({ s with count := -B + 1 + (if q' = [] then 0 else -B), q := q' }.setpc i .holdW).release)
    else some ((s.setpc i .wBlk).release)
  | .wBlk, .run =>
    if s.sg i then some ({ s with sg := upd s.sg i false }.setpc i .wRelock) else none
  | .wBlk, .spurious => some (s.setpc i .wRelock)
  -- 184-185
  | .wRelock, .run =>
    if s.lk ≠ none then none else some ({ s with lk := some i }.setpc i (.wLoop s.count))
  | .wake w k, .run => stepWake B s i k w
  | _, _ => none

/-- The states reachable by `n` threads. Belongs to the model of rwlock-generic.h:19-23. -/
inductive Reach (B : Int) (n : Nat) : St → Prop where
  | init : Reach B n St.init
  | step {s s' : St} (i : Nat) (a : Act) (hi : i < n) (h : Reach B n s)
      (hs : step B s i a = some s') : Reach B n s'

end Verif.RwLock
