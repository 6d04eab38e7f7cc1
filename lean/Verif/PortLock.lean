/-!
# Created locks on every port

Models `aosl_lock_create/lock/trylock/unlock/destroy` (lib/thread_api.c:48-81) with `k_lock_*` (kernel/thread.c:131-172) and
`aosl_hal_mutex_*` of the eighteen ports (platform/src/PORT/aosl_hal_thread.c).

One lock and any number of threads.  A mutex of the operating system is its owner: taking it blocks while it has one, trying it fails while
it has one, giving it back takes the owner away.  The mutex of the windows port is a critical section, which its owner may take again; the
model leaves calls of a thread that has the lock already to the operating system and the claims leave them out.  Only the holder gives a lock back.
-/
namespace Verif.PortLock

/-- The ports of platform/src. Belongs to the model of lib/thread_api.c:48-81, kernel/thread.c:131-172. -/
inductive Port where
  | linux | darwin | esp32 | ipro7 | harmony | bk725x
  | rtl8713 | xr872
  | asr1606
  | windows | tw82x | ac791n
  | sprd8910ff | sprdT117 | sprdW117 | sprdW217 | sprdW307 | sprdW337
deriving DecidableEq, Repr

/-- What `aosl_hal_mutex_lock` and `aosl_hal_mutex_unlock` do with no mutex. -/
inductive OnNull where
  /-- return -1: windows 429-431, 446-448; tw82x 343-345, 369-371; ac791n 134, 146; spreadtrum-* 134-136, 160-162 -/
  | refuse
  /-- hand it to the operating system, for which it is not a mutex: linux 168-181, darwin 132-134, esp32 169-182, ipro7 272-285, harmony 165-178,
      bk725x 132-145, rtl8713 199-221, xr872 394-416, asr1606 134-147.  The model ends there. -/
  | pass
deriving DecidableEq, Repr

/-- Belongs to the model of lib/thread_api.c:48-81, kernel/thread.c:131-172. -/
def onNull : Port → OnNull
  | .windows | .tw82x | .ac791n => .refuse
  | .sprd8910ff | .sprdT117 | .sprdW117 | .sprdW217 | .sprdW307 | .sprdW337 => .refuse
  | _ => .pass

/-- How many blocks the port takes from the heap for one mutex: the pthread ports, windows 407, tw82x 306, ac791n 114 allocate one; the others
    keep the handle of the system in the lock itself (rtl8713 182, xr872 377, asr1606 119-124, spreadtrum-* 111-116). -/
def heapBlocks : Port → Nat
  | .rtl8713 | .xr872 | .asr1606 => 0
  | .sprd8910ff | .sprdT117 | .sprdW117 | .sprdW217 | .sprdW307 | .sprdW337 => 0
  | _ => 1

/-- How one creation goes: `obj`: the allocation of `k_lock_t` (thread_api.c:50); `mem`: the allocation of the mutex by the port;
    `sys`: the operating system makes the mutex. -/
structure Luck where
  obj : Bool
  mem : Bool
  sys : Bool
deriving DecidableEq, Repr

/-- Does `aosl_hal_mutex_create` give a mutex?  (linux 141-156 and the like in the other ports; windows 412 cannot fail: `InitializeCriticalSection` has no result.) -/
def halCreate (p : Port) (l : Luck) : Bool :=
  (heapBlocks p == 0 || l.mem) && (p == .windows || l.sys)

/-- `k_lock_t`: its mutex if there is one, a mutex being its owner. Belongs to the model of lib/thread_api.c:48-81, kernel/thread.c:131-172. -/
abbrev Lock := Option (Option Nat)

/-- `lock`: the lock the user has; `blocks`: blocks of the heap in use; `mutexes`: mutexes of the operating system in use. Belongs to the model of lib/thread_api.c:48-81, kernel/thread.c:131-172. -/
structure St where
  lock : Option Lock
  blocks : Nat
  mutexes : Nat
deriving DecidableEq, Repr

/-- The state at the beginning, in the model of lib/thread_api.c:48-81, kernel/thread.c:131-172. -/
def St.init : St := ⟨none, 0, 0⟩

/-- What a call did. Belongs to the model of lib/thread_api.c:48-81, kernel/thread.c:131-172. -/
inductive Out (α : Type) where
  | ret (v : α) (s : St)
  /-- does not return yet -/
  | blocks
  /-- something that is not a mutex, or no lock at all, was handed on -/
  | ub
deriving DecidableEq, Repr

/-- aosl_lock_create (thread_api.c:48-56), k_lock_init (kernel/thread.c:131-134): is there a lock?  The port releases what it has when it fails (linux 151, tw82x 314, ac791n 118). -/
def create (p : Port) (l : Luck) (s : St) : Out Bool :=
  if l.obj then
    if halCreate p l then .ret true ⟨some (some none), s.blocks + 1 + heapBlocks p, s.mutexes + 1⟩
    else .ret true ⟨some none, s.blocks + 1, s.mutexes⟩
  else .ret false s

/-- What `create` would be if it gave the lock back and returned NULL when there is no mutex.  Not in the code. Belongs to the model of lib/thread_api.c:48-81, kernel/thread.c:131-172. -/
def createChecked (p : Port) (l : Luck) (s : St) : Out Bool :=
  if l.obj then
    if halCreate p l then .ret true ⟨some (some none), s.blocks + 1 + heapBlocks p, s.mutexes + 1⟩
    else .ret false s
  else .ret false s

/-- aosl_lock_lock (thread_api.c:58-61), k_lock_lock (kernel/thread.c:142-145): the result of the port is dropped. -/
def lock (p : Port) (t : Nat) (s : St) : Out Unit :=
  match s.lock with
  | none => .ub
  | some none => match onNull p with
    | .refuse => .ret () s
    | .pass => .ub
  | some (some none) => .ret () { s with lock := some (some (some t)) }
  | some (some (some _)) => .blocks

/-- aosl_lock_trylock (thread_api.c:63-66), k_lock_trylock (kernel/thread.c:148-159): 1 for success. -/
def trylock (t : Nat) (s : St) : Out Int :=
  match s.lock with
  | none => .ub
  | some none => .ret 0 s
  | some (some none) => .ret 1 { s with lock := some (some (some t)) }
  | some (some (some _)) => .ret 0 s

/-- aosl_lock_unlock (thread_api.c:68-71), k_lock_unlock (kernel/thread.c:161-164). -/
def unlock (p : Port) (s : St) : Out Unit :=
  match s.lock with
  | none => .ub
  | some none => match onNull p with
    | .refuse => .ret () s
    | .pass => .ub
  | some (some _) => .ret () { s with lock := some (some none) }

/-- aosl_lock_destroy (thread_api.c:73-78), k_lock_destroy (kernel/thread.c:166-172), aosl_hal_mutex_destroy (linux 158-166 and the like). -/
def destroy (p : Port) (s : St) : Out Unit :=
  match s.lock with
  | none => .ret () s
  | some none => .ret () ⟨none, s.blocks - 1, s.mutexes⟩
  | some (some _) => .ret () ⟨none, s.blocks - heapBlocks p - 1, s.mutexes - 1⟩

/-- A call of a thread. Belongs to the model of lib/thread_api.c:48-81, kernel/thread.c:131-172. -/
inductive Call where
  | create (l : Luck)
  | lock (t : Nat)
  | trylock (t : Nat)
  | unlock (t : Nat)
  | destroy
deriving DecidableEq, Repr

/-- What was seen: a call returned (with its result), did not return, or broke. Belongs to the model of lib/thread_api.c:48-81, kernel/thread.c:131-172. -/
inductive Ev where
  | created (ok : Bool)
  | locked (t : Nat)
  | waits (t : Nat)
  | tried (t : Nat) (r : Int)
  | unlocked (t : Nat)
  | destroyed
  | broke
deriving DecidableEq, Repr

/-- One call and what is seen of it; `mk` is the creation. Belongs to the model of lib/thread_api.c:48-81, kernel/thread.c:131-172. -/
def step (mk : Luck → St → Out Bool) (p : Port) (s : St) : Call → Ev × St
  | .create l => match mk l s with | .ret r s' => (.created r, s') | _ => (.broke, s)
  | .lock t => match lock p t s with | .ret _ s' => (.locked t, s') | .blocks => (.waits t, s) | .ub => (.broke, s)
  | .trylock t => match trylock t s with | .ret r s' => (.tried t r, s') | _ => (.broke, s)
  | .unlock t => match unlock p s with | .ret _ s' => (.unlocked t, s') | _ => (.broke, s)
  | .destroy => match destroy p s with | .ret _ s' => (.destroyed, s') | _ => (.broke, s)

/-- All calls in the order in which they act; a `lock` that waits is made again by the list. Belongs to the model of lib/thread_api.c:48-81, kernel/thread.c:131-172. -/
def run (mk : Luck → St → Out Bool) (p : Port) : St → List Call → List Ev × St
  | s, [] => ([], s)
  | s, c :: cs => let (e, s') := step mk p s c; let (es, s'') := run mk p s' cs; (e :: es, s'')

end Verif.PortLock
