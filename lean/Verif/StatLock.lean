/-!
# Static locks: first use, exclusion, every port

Models k_static_lock_init, k_static_lock_lock, k_static_lock_trylock, k_static_lock_unlock and k_static_lock_fini (kernel/thread.c:390-507), which aosl_static_lock_* (lib/thread_api.c:81-103) call, over
what aosl_hal_static_mutex_init leaves in the bytes of the lock on each port (platform/src/*/aosl_hal_thread.c).  Between two accesses to the state word of the lock other threads may run.

The calls on the mutex of the platform are one step each.  A platform mutex call that is given the address of bytes that are no mutex is undefined behaviour: the run stops there (`ub`).  Threads
use the lock correctly: only a thread that was not given the lock asks for it, only the one that was gives it back, and aosl_static_lock_fini is called when nobody uses the lock.
-/

namespace Verif.StatLock

/-- The ports; spreadtrum stands for its six.  ac791n has no aosl_hal_static_mutex_init at all. -/
inductive Port
  | linux | darwin | harmony | esp32 | bk725x | tw82x | windows | xr872 | asr1606 | rtl8713 | spreadtrum | ipro7
deriving DecidableEq, Repr

/-- Is there a mutex in the lock's own bytes after aosl_hal_static_mutex_init returned 0?  They are what is given to aosl_hal_mutex_lock (thread.c:464, 485, 502).
linux 183-194, darwin 136-142, harmony 180-191, esp32 184-195, bk725x 147-158: a mutex is copied there; tw82x 380-388, windows 453-461: made there; xr872 418-431: made there;
asr1606 149-168: a mutex is made elsewhere and its handle copied there; rtl8713 291-297, spreadtrum 236-241, ipro7 287-292: nothing is done. -/
def inPlace : Port → Bool
  | .linux | .darwin | .harmony | .esp32 | .bk725x | .tw82x | .windows | .xr872 => true
  | .asr1606 | .rtl8713 | .spreadtrum | .ipro7 => false

/-- Can aosl_hal_static_mutex_init fail for a lock that exists?  tw82x 387: os_mutex_init; asr1606 160-163: ql_rtos_mutex_create. -/
def canFail : Port → Bool
  | .tw82x | .asr1606 => true
  | _ => false

/-- The cases distinguished in the model of kernel/thread.c:390-507, lib/thread_api.c:81-103. -/
inductive Word | uninit | initializing | initialized
deriving DecidableEq, Repr

/-- The calls and events of the model of kernel/thread.c:390-507, lib/thread_api.c:81-103. -/
inductive Call | init | lock | trylock | unlock
deriving DecidableEq, Repr

/-- Where a thread is. -/
inductive PC
  | out
  /-- reads the state (thread.c:455, 475, 493) -/
  | read (c : Call)
  /-- the compare-and-exchange (393-395) -/
  | cas (c : Call)
  /-- in aosl_hal_static_mutex_init (399) -/
  | hal (c : Call)
  /-- it has succeeded: 408 -/
  | pubOk (c : Call)
  /-- it has failed: 403 -/
  | pubErr (c : Call)
  /-- the loop 414-420, after `n` looks -/
  | spin (c : Call) (n : Nat)
  /-- at the mutex of the platform (464, 485, 502); for `init`: about to return 0 -/
  | go (c : Call)
deriving DecidableEq, Repr

/-- What a call returned. Belongs to the model of kernel/thread.c:390-507, lib/thread_api.c:81-103. -/
structure Ret where
  t : Nat
  c : Call
  ok : Bool
deriving DecidableEq, Repr

/-- `obj`: the mutex in the lock's bytes, with its owner; `has`: the threads that were given the lock and have not given it back. Belongs to the model of kernel/thread.c:390-507, lib/thread_api.c:81-103. -/
structure St where
  word : Word
  obj : Option (Option Nat)
  pc : Nat → PC
  has : List Nat
  rets : List Ret
  ub : Bool

/-- The state at the beginning, in the model of kernel/thread.c:390-507, lib/thread_api.c:81-103. -/
def St.init : St := ⟨.uninit, none, fun _ => .out, [], [], false⟩

/-- A table changed at one place, as an assignment to one element or one object does; used in the model of kernel/thread.c:390-507, lib/thread_api.c:81-103. -/
def upd (f : Nat → PC) (t : Nat) (x : PC) : Nat → PC := fun i => if i = t then x else f i

inductive Act
  /-- thread `t` makes the call -/
  | call (t : Nat) (c : Call)
  /-- thread `t` goes on; `ok`: aosl_hal_static_mutex_init succeeds -/
  | go (t : Nat) (ok : Bool)
  /-- aosl_static_lock_fini (430-448), with nobody using the lock -/
  | fini (t : Nat)
deriving DecidableEq, Repr

/-- Belongs to the model of kernel/thread.c:390-507, lib/thread_api.c:81-103. -/
def St.ret (s : St) (t : Nat) (c : Call) (ok : Bool) : St := { s with pc := upd s.pc t .out, rets := s.rets ++ [⟨t, c, ok⟩] }

/-- One step of thread `t`; `none`: it has to wait (or has no step). Belongs to the model of kernel/thread.c:390-507, lib/thread_api.c:81-103. -/
def go (p : Port) (s : St) (t : Nat) (ok : Bool) : Option St :=
  match s.pc t with
  | .out => none
  | .read c => some { s with pc := upd s.pc t (if s.word = .initialized then .go c else .cas c) }
  | .cas c =>
    match s.word with
    | .uninit => some { s with word := .initializing, pc := upd s.pc t (.hal c) }
    | .initializing => some { s with pc := upd s.pc t (.spin c 0) }
    | .initialized => some { s with pc := upd s.pc t (.go c) }
  | .hal c =>
    if ok then some { s with obj := if inPlace p then some none else s.obj, pc := upd s.pc t (.pubOk c) }
    else if canFail p then some { s with pc := upd s.pc t (.pubErr c) }
    else none
  | .pubOk c => some { s with word := .initialized, pc := upd s.pc t (.go c) }
  | .pubErr c => some ({ s with word := .uninit }.ret t c false)
  | .spin c n =>
    if s.word = .initializing then
      if n + 1 > 100 then some (s.ret t c false) else some { s with pc := upd s.pc t (.spin c (n + 1)) }
    else some { s with pc := upd s.pc t (.go c) }
  | .go .init => some (s.ret t .init true)
  | .go .lock =>
    match s.obj with
    | none => some { s with ub := true }
    | some none => some ({ s with obj := some (some t), has := t :: s.has }.ret t .lock true)
    | some (some _) => none
  | .go .trylock =>
    match s.obj with
    | none => some { s with ub := true }
    | some none => some ({ s with obj := some (some t), has := t :: s.has }.ret t .trylock true)
    | some (some _) => some (s.ret t .trylock false)
  | .go .unlock =>
    match s.obj with
    | some (some u) => if u = t then some ({ s with obj := some none, has := s.has.erase t }.ret t .unlock true) else some { s with ub := true }
    | _ => some { s with ub := true }

/-- May the thread make this call?  See the head of the file. Belongs to the model of kernel/thread.c:390-507, lib/thread_api.c:81-103. -/
def may (s : St) (t : Nat) : Call → Bool
  | .init => true
  | .lock => !(s.has.contains t)
  | .trylock => !(s.has.contains t)
  | .unlock => s.has.contains t

/-- `idle`: no thread is inside a call (asked for by `fini`). Belongs to the model of kernel/thread.c:390-507, lib/thread_api.c:81-103. -/
def step (p : Port) (s : St) (idle : Bool) : Act → Option St
  | .call t c => if s.ub then none else if s.pc t = .out ∧ may s t c then some { s with pc := upd s.pc t (if c = .init then .cas c else .read c) } else none
  | .go t ok => if s.ub then none else go p s t ok
  | .fini _ => if s.ub then none else if idle ∧ s.has = [] then some (if s.word = .initialized then { s with word := .uninit, obj := none } else s) else none

/-- The runs: `fini` only when really nobody is inside a call. Belongs to the model of kernel/thread.c:390-507, lib/thread_api.c:81-103. -/
inductive Run (p : Port) : St → List Act → St → Prop
  | nil (s : St) : Run p s [] s
  | cons {s s' s'' : St} {a : Act} {as : List Act} (idle : Bool) (hi : idle = true → ∀ t, s.pc t = .out) (h : step p s idle a = some s') (r : Run p s' as s'') : Run p s (a :: as) s''

end Verif.StatLock
