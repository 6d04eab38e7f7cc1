/-
  Model of the atomic operations of the ports (platform/src/*/aosl_hal_atomic.c) under the macros of include/kernel/atomic.h:18-31 and the API of lib/atomic.c:13-62:
  the ports on compiler intrinsics (linux, harmony, darwin, esp32, bk725x, ipro7, rtl8713, xr872, asr1606, spreadtrum-w307/w337; ac791n; windows), the ports with
  LDREX/STREX loops (spreadtrum-8910ff, t117, w117, w217) and tw82x. One variable of `w` bits (intptr_t), any number of threads; memory is sequentially consistent.
-/
namespace Verif.PortAtomic

/-- The operations on one variable (include/kernel/atomic.h:18-31). -/
inductive Op (w : Nat) where
  | read
  | set (i : BitVec w)
  | inc
  | dec
  | add (i : BitVec w)
  | sub (i : BitVec w)
  | cmpxchg (old new : BitVec w)
  | xchg (new : BitVec w)
deriving DecidableEq, Repr

/-! ## Specification (platform/include/hal/aosl_hal_atomic.h:18-85) -/

/-- The new value and the result: the old value for inc, dec, cmpxchg, xchg, the new value for add and sub. Belongs to the model of platform/include/hal/aosl_hal_atomic.h:18-85. -/
def spec : Op w → BitVec w → BitVec w × BitVec w
  | .read, v => (v, v)
  | .set i, _ => (i, 0)
  | .inc, v => (v + 1, v)
  | .dec, v => (v - 1, v)
  | .add i, v => (v + i, v + i)
  | .sub i, v => (v - i, v - i)
  | .cmpxchg o n, v => (if v = o then n else v, v)
  | .xchg n, v => (n, v)

/-- The operations one after another. Belongs to the model of platform/include/hal/aosl_hal_atomic.h:18-85. -/
def replay (v : BitVec w) : List (Op w) → BitVec w × List (BitVec w)
  | [] => (v, [])
  | o :: l => ((replay (spec o v).1 l).1, (spec o v).2 :: (replay (spec o v).1 l).2)

/-! ## Compiler intrinsics -/

/-- __atomic_add_fetch: new value and result. Belongs to the model of platform/include/hal/aosl_hal_atomic.h:18-85. -/
def addFetch (i v : BitVec w) : BitVec w × BitVec w := (v + i, v + i)
/-- __atomic_sub_fetch. Belongs to the model of platform/include/hal/aosl_hal_atomic.h:18-85. -/
def subFetch (i v : BitVec w) : BitVec w × BitVec w := (v - i, v - i)
/-- __atomic_fetch_add, InterlockedExchangeAdd. Belongs to the model of platform/include/hal/aosl_hal_atomic.h:18-85. -/
def fetchAdd (i v : BitVec w) : BitVec w × BitVec w := (v + i, v)
/-- __atomic_fetch_sub. Belongs to the model of platform/include/hal/aosl_hal_atomic.h:18-85. -/
def fetchSub (i v : BitVec w) : BitVec w × BitVec w := (v - i, v)
/-- __atomic_exchange_n, InterlockedExchangePointer. Belongs to the model of platform/include/hal/aosl_hal_atomic.h:18-85. -/
def exchange (n v : BitVec w) : BitVec w × BitVec w := (n, v)
/-- __atomic_compare_exchange_n: new value, what is in `expected` afterwards, success. Belongs to the model of platform/include/hal/aosl_hal_atomic.h:18-85. -/
def cmpExchN (expected n v : BitVec w) : BitVec w × BitVec w × Bool := if v = expected then (n, expected, true) else (v, v, false)
/-- InterlockedCompareExchange (destination, exchange, comparand). Belongs to the model of platform/include/hal/aosl_hal_atomic.h:18-85. -/
def interlockedCmp (n comparand v : BitVec w) : BitVec w × BitVec w := (if v = comparand then n else v, v)

/-- The cases distinguished in the model of platform/include/hal/aosl_hal_atomic.h:18-85. -/
inductive Port where
  | linux | gcc | ac791n | windows
deriving DecidableEq, Repr

/-- The operations of the ports on intrinsics; the intrinsic is one step.
    linux: platform/src/linux/aosl_hal_atomic.c:11-80 (harmony the same; darwin/aosl_hal_atomic.c:5-43).
    gcc: platform/src/esp32/aosl_hal_atomic.c and bk725x, ipro7, rtl8713, xr872, asr1606, spreadtrum-w307, spreadtrum-w337.
    ac791n: platform/src/ac791n/aosl_hal_atomic.c:9-54. windows: platform/src/windows/aosl_hal_atomic.c:5-59. -/
def portOp : Port → Op w → BitVec w → BitVec w × BitVec w
  | .windows, .read, v => interlockedCmp 0 0 v
  | _, .read, v => (v, v)
  | .windows, .set i, v => ((exchange i v).1, 0)
  | _, .set i, _ => (i, 0)
  | .ac791n, .inc, v => ((addFetch 1 v).1, (addFetch 1 v).2 - 1)
  | _, .inc, v => fetchAdd 1 v
  | .ac791n, .dec, v => ((addFetch (-1) v).1, (addFetch (-1) v).2 + 1)
  | .windows, .dec, v => fetchAdd (-1) v
  | _, .dec, v => fetchSub 1 v
  | .windows, .add i, v => ((fetchAdd i v).1, (fetchAdd i v).2 + i)
  | _, .add i, v => addFetch i v
  | .gcc, .sub i, v => subFetch i v
  | .windows, .sub i, v => ((fetchAdd (-i) v).1, (fetchAdd (-i) v).2 + -i)
  | _, .sub i, v => addFetch (-i) v
  | .windows, .cmpxchg o n, v => interlockedCmp n o v
  | _, .cmpxchg o n, v => ((cmpExchN o n v).1, (cmpExchN o n v).2.1)
  | _, .xchg n, v => exchange n v

/-! ## LDREX/STREX loops (platform/src/spreadtrum-8910ff/aosl_hal_atomic.c:17-113) -/
namespace Excl

/-- What a thread is doing: `start`: before the (next) LDREX, or before the only access; `loaded`: LDREX has given `cur`. Belongs to the model of platform/src/spreadtrum-8910ff/aosl_hal_atomic.c:17-113. -/
inductive Pc (w : Nat) where
  | idle
  | start (o : Op w)
  | loaded (o : Op w) (cur : BitVec w)
deriving DecidableEq, Repr

/-- `mon`: the thread's exclusive monitor is set. Belongs to the model of platform/src/spreadtrum-8910ff/aosl_hal_atomic.c:17-113. -/
structure St (w : Nat) where
  mem : BitVec w
  pc : Nat → Pc w
  mon : Nat → Bool

/-- The state at the beginning, in the model of platform/src/spreadtrum-8910ff/aosl_hal_atomic.c:17-113. -/
def St.init (v : BitVec w) : St w := ⟨v, fun _ => .idle, fun _ => false⟩

/-- What STREX stores (lines 33-34, 47-48, 61-62, 75-76, 96, 108) -/
def stored : Op w → BitVec w → BitVec w
  | .inc, c => c + 1
  | .dec, c => c - 1
  | .add i, c => c + i
  | .sub i, c => c - i
  | .cmpxchg _ n, _ => n
  | .xchg n, _ => n
  | _, c => c

/-- What is returned after STREX has succeeded (lines 38, 52, 66, 80, 99, 112): `old` or `new_val` -/
def returned : Op w → BitVec w → BitVec w
  | .add i, c => c + i
  | .sub i, c => c - i
  | _, c => c

inductive Act (w : Nat) where
  /-- a thread calls an operation -/
  | call (t : Nat) (o : Op w)
  /-- the plain access of read and set (19, 24), or LDREX -/
  | load (t : Nat)
  /-- STREX; `lucky`: the processor does not let it fail for reasons of its own -/
  | store (t : Nat) (lucky : Bool)
  /-- the thread's monitor is cleared by something else (a context switch) -/
  | clear (t : Nat)

/-- A table changed at one place, as an assignment to one element or one object does; used in the model of platform/src/spreadtrum-8910ff/aosl_hal_atomic.c:17-113. -/
def upd (f : Nat → β) (i : Nat) (v : β) : Nat → β := fun j => if j = i then v else f j

/-- One step; the second component tells that an operation has been done, by whom and with which result. A store clears all monitors. -/
def step (s : St w) : Act w → Option (St w × Option (Nat × Op w × BitVec w))
  | .call t o => if s.pc t = .idle then some ({ s with pc := upd s.pc t (.start o) }, none) else none
  | .load t =>
    match s.pc t with
    | .start .read => some ({ s with pc := upd s.pc t .idle }, some (t, .read, s.mem))
    | .start (.set i) => some (⟨i, upd s.pc t .idle, fun _ => false⟩, some (t, .set i, 0))
    -- 89-94: another value: __clrex (), return cur
    | .start (.cmpxchg o n) =>
      if s.mem ≠ o then some ({ s with pc := upd s.pc t .idle, mon := upd s.mon t false }, some (t, .cmpxchg o n, s.mem))
      else some ({ s with pc := upd s.pc t (.loaded (.cmpxchg o n) s.mem), mon := upd s.mon t true }, none)
    | .start o => some ({ s with pc := upd s.pc t (.loaded o s.mem), mon := upd s.mon t true }, none)
    | _ => none
  | .store t lucky =>
    match s.pc t with
    | .loaded o c =>
      if s.mon t && lucky then some (⟨stored o c, upd s.pc t .idle, fun _ => false⟩, some (t, o, returned o c))
      -- 36: while (status != 0)
      else some ({ s with pc := upd s.pc t (.start o), mon := upd s.mon t false }, none)
    | _ => none
  | .clear t => some ({ s with mon := upd s.mon t false }, none)

/-- A run and the operations done in it, in the order in which they were done. Belongs to the model of platform/src/spreadtrum-8910ff/aosl_hal_atomic.c:17-113. -/
def run (s : St w) : List (Act w) → Option (St w × List (Nat × Op w × BitVec w))
  | [] => some (s, [])
  | a :: l =>
    match step s a with
    | none => none
    | some (s', e) => (run s' l).map fun p => (p.1, e.toList ++ p.2)

end Excl

/-! ## tw82x (platform/src/tw82x/aosl_hal_atomic.c:12-107) -/
namespace Tw

/-- `second o r`: the first of the two accesses is done; `r`: what it read. Belongs to the model of platform/src/tw82x/aosl_hal_atomic.c:12-107. -/
inductive Pc (w : Nat) where
  | idle
  | start (o : Op w)
  | second (o : Op w) (r : BitVec w)
deriving DecidableEq, Repr

/-- Data of the model of platform/src/tw82x/aosl_hal_atomic.c:12-107. -/
structure St (w : Nat) where
  mem : BitVec w
  pc : Nat → Pc w

/-- The state at the beginning, in the model of platform/src/tw82x/aosl_hal_atomic.c:12-107. -/
def St.init (v : BitVec w) : St w := ⟨v, fun _ => .idle⟩

/-- The calls and events of the model of platform/src/tw82x/aosl_hal_atomic.c:12-107. -/
inductive Act (w : Nat) where
  | call (t : Nat) (o : Op w)
  | go (t : Nat)

/-- What a step does: the memory is changed by an operation, an operation returns. Belongs to the model of platform/src/tw82x/aosl_hal_atomic.c:12-107. -/
structure Ev (w : Nat) where
  effect : Option (Op w)
  ret : Option (Nat × Op w × BitVec w)

open Excl (upd)

/-- inc and dec read, then change (36-38, 49-51); add and sub change, then read (63-64, 76-77); the others are one access (14, 25, 90, 102-106; the system's functions
    and the section without interrupts are one step). intptr_t and uint32 have the same width. -/
def step (s : St w) : Act w → Option (St w × Ev w)
  | .call t o => if s.pc t = .idle then some ({ s with pc := upd s.pc t (.start o) }, ⟨none, none⟩) else none
  | .go t =>
    match s.pc t with
    | .idle => none
    | .start .read => some (⟨s.mem, upd s.pc t .idle⟩, ⟨some .read, some (t, .read, s.mem)⟩)
    | .start (.set i) => some (⟨i, upd s.pc t .idle⟩, ⟨some (.set i), some (t, .set i, 0)⟩)
    | .start (.cmpxchg o n) => some (⟨if s.mem = o then n else s.mem, upd s.pc t .idle⟩, ⟨some (.cmpxchg o n), some (t, .cmpxchg o n, s.mem)⟩)
    | .start (.xchg n) => some (⟨n, upd s.pc t .idle⟩, ⟨some (.xchg n), some (t, .xchg n, s.mem)⟩)
    | .start .inc => some (⟨s.mem, upd s.pc t (.second .inc s.mem)⟩, ⟨none, none⟩)
    | .start .dec => some (⟨s.mem, upd s.pc t (.second .dec s.mem)⟩, ⟨none, none⟩)
    | .start (.add i) => some (⟨s.mem + i, upd s.pc t (.second (.add i) 0)⟩, ⟨some (.add i), none⟩)
    | .start (.sub i) => some (⟨s.mem - i, upd s.pc t (.second (.sub i) 0)⟩, ⟨some (.sub i), none⟩)
    | .second .inc r => some (⟨s.mem + 1, upd s.pc t .idle⟩, ⟨some .inc, some (t, .inc, r)⟩)
    | .second .dec r => some (⟨s.mem - 1, upd s.pc t .idle⟩, ⟨some .dec, some (t, .dec, r)⟩)
    | .second o _ => some (⟨s.mem, upd s.pc t .idle⟩, ⟨none, some (t, o, s.mem)⟩)

/-- A run: the operations in the order in which they changed the memory, and the results in the order in which they were returned. Belongs to the model of platform/src/tw82x/aosl_hal_atomic.c:12-107. -/
def run (s : St w) : List (Act w) → Option (St w × List (Op w) × List (Nat × Op w × BitVec w))
  | [] => some (s, [], [])
  | a :: l =>
    match step s a with
    | none => none
    | some (s', e) => (run s' l).map fun p => (p.1, e.effect.toList ++ p.2.1, e.ret.toList ++ p.2.2)

end Tw
end Verif.PortAtomic
