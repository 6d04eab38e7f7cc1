/-!
# The allocators of the ports

Models platform/src/bk725x/aosl_hal_memory.c:1-125 and platform/src/spreadtrum-*/aosl_hal_memory.c:1-131 (the same text but for the names of the platform's functions) with and without
AOSL_MM_DEBUG, and aosl_hal_calloc of every port.  A size_t has the values below `W` (2^32 on these chips).  The platform's malloc and realloc may fail; when they do not they give a block of the size
they were asked for, and realloc keeps the block (`same`) or gives a fresh one; a failed realloc leaves the block, as the C standard says.
The counters are atomic; one call is one step.
-/

namespace Verif.PortMem

/-- `__mm_trace_get_mask_size` (bk725x 22-25): the 8 bytes of the header on a 32-bit chip, rounded up to 16. -/
def mask : Nat := (8 + 15) / 16 * 16

/-- A block of the platform with its header (bk725x 14-17); `addr` is what the user was given; `cap`: the bytes the platform gave, header included; `size`: `original_alloc_size`;
`good`: `original_alloc_ptr == header`. -/
structure Blk where
  addr : Nat
  cap : Nat
  size : Nat
  good : Bool
deriving DecidableEq, Repr

/-- `usage`, `slices`: the two counters (19-20); `aborted`: the assertion in line 42 has failed; `smashed`: the header was written outside the block. -/
structure St where
  live : List Blk
  usage : Int
  slices : Int
  aborted : Bool
  smashed : Bool
deriving DecidableEq, Repr

/-- The state at the beginning, in the model of platform/src/bk725x/aosl_hal_memory.c:1-125, aosl_hal_memory.c:1-131. -/
def St.init : St := ⟨[], 0, 0, false, false⟩

/-- The calls and events of the model of platform/src/bk725x/aosl_hal_memory.c:1-125, aosl_hal_memory.c:1-131. -/
inductive Op
  /-- aosl_hal_malloc; the platform's answer -/
  | malloc (n : Nat) (ans : Option Nat)
  /-- aosl_hal_calloc -/
  | calloc (k n : Nat) (ans : Option Nat)
  /-- aosl_hal_realloc of a block; the platform's answer -/
  | realloc (a n : Nat) (ans : Option Nat)
  | free (a : Nat)
deriving DecidableEq, Repr

/-- Belongs to the model of platform/src/bk725x/aosl_hal_memory.c:1-125, aosl_hal_memory.c:1-131. -/
def fresh (s : St) (a : Nat) : Bool := !(s.live.any (fun b => b.addr = a))

/-- `__mm_trace_mask` (27-35) on a platform block of `cap` bytes -/
def maskBlk (s : St) (a cap n : Nat) : St :=
  { s with live := ⟨a, cap, n, true⟩ :: s.live, usage := s.usage + n, slices := s.slices + 1, smashed := s.smashed || decide (cap < mask) }

/-- `__mm_trace_unmask` (37-48), the block itself is left to the caller -/
def unmask (s : St) (b : Blk) : St :=
  if b.good then { s with usage := s.usage - b.size, slices := s.slices - 1 } else { s with aborted := true }

/-- aosl_hal_malloc (50-58) -/
def doMalloc (W : Nat) (s : St) (n : Nat) : Option Nat → Option St
  | none => some s
  | some a => if fresh s a then some (maskBlk s a ((n + mask) % W) n) else none

/-- aosl_hal_free (90-95) -/
def doFree (s : St) (a : Nat) : Option St :=
  match s.live.find? (fun b => b.addr = a) with
  | none => none
  | some b =>
    let s1 := unmask s b
    if s1.aborted then some s1 else some { s1 with live := s.live.eraseP (fun b => b.addr = a) }

/-- `none`: a use of the allocator that C forbids, or an answer that the platform cannot give. -/
def step (W : Nat) (s : St) : Op → Option St
  | .malloc n ans => if s.aborted then none else doMalloc W s n ans
  | .calloc k n ans => if s.aborted then none else doMalloc W s (k * n % W) ans
  | .realloc a n ans =>
    if s.aborted then none
    else if n = 0 then doFree s a
    else match s.live.find? (fun b => b.addr = a) with
      | none => none
      | some b =>
        let s1 := unmask s b
        if s1.aborted then some s1
        else match ans with
          -- 83: the header has been wiped (45) and the block stays with the user
          | none => some { s1 with live := { b with good := false } :: s.live.eraseP (fun b => b.addr = a) }
          | some a' =>
            let s2 := { s1 with live := s.live.eraseP (fun b => b.addr = a) }
            if fresh s2 a' then some (maskBlk s2 a' ((n + mask) % W) n) else none
  | .free a => if s.aborted then none else doFree s a

/-- One event after the other, in the model of platform/src/bk725x/aosl_hal_memory.c:1-125, aosl_hal_memory.c:1-131; no code of its own. -/
def run (W : Nat) : St → List Op → Option St
  | s, [] => some s
  | s, op :: ops => match step W s op with
    | none => none
    | some s' => run W s' ops

/-! ## calloc of every port -/

/-- The cases distinguished in the model of platform/src/bk725x/aosl_hal_memory.c:1-125, aosl_hal_memory.c:1-131. -/
inductive Port
  | linux | darwin | harmony | esp32 | tw82x | windows | xr872 | asr1606 | ac791n | ipro7 | bk725x | rtl8713 | spreadtrum
deriving DecidableEq, Repr

/-- Does aosl_hal_calloc multiply itself?  bk725x 105-108, rtl8713 11-14, spreadtrum 112-119 do; the others hand both numbers to the calloc of the platform. -/
def multiplies : Port → Bool
  | .bk725x | .rtl8713 | .spreadtrum => true
  | _ => false

/-- aosl_hal_calloc: the bytes of the block it returns, all of them 0; `none`: NULL.  `avail`: the largest block there is.  The platform's calloc is the C standard's: it fails when the product is
no size_t. Belongs to the model of platform/src/bk725x/aosl_hal_memory.c:1-125, aosl_hal_memory.c:1-131. -/
def calloc (p : Port) (W avail k n : Nat) : Option (List Nat) :=
  if multiplies p then
    if k * n % W ≤ avail then some (List.replicate (k * n % W) 0) else none
  else if k * n < W ∧ k * n ≤ avail then some (List.replicate (k * n) 0) else none

end Verif.PortMem
