/-!
  Model of the packet buffer: lib/psbuff.c and include/kernel/psbuff.h.

  A pointer into the buffer is represented by its (possibly negative) offset from `head`. C integer
  widths are kept: API lengths are `size_t`, the inline functions take `unsigned int` (`% 2^32`), `len`
  and `size` are `size_t` (arithmetic `% 2^64`), `(int)len` is two's complement.
  Simplification: pointer comparisons are comparisons of offsets (the buffer does not wrap around the
  address space). The bytes of the buffer are a map from offsets to bytes.
-/
namespace Verif.Psb

/-- include/kernel/psbuff.h:20-29. `off` is `data - head`; `mem o` is the byte at `head + o`. -/
structure Psb where
  off : Int
  len : Nat
  size : Nat
  mem : Int → UInt8

/-- A `size_t` argument passed to an `unsigned int` parameter. Belongs to the model of psbuff.c:16-219, include/kernel/psbuff.h:20-161. -/
def u32 (n : Nat) : Nat := n % 2 ^ 32
/-- Conversion of a (signed) value to `unsigned int`. Belongs to the model of psbuff.c:16-219, include/kernel/psbuff.h:20-161. -/
def u32i (i : Int) : Nat := (i % 2 ^ 32).toNat
/-- Conversion of a value to `size_t`. Belongs to the model of psbuff.c:16-219, include/kernel/psbuff.h:20-161. -/
def u64i (i : Int) : Nat := (i % 2 ^ 64).toNat
/-- The cast `(int)len` of an `unsigned int`. Belongs to the model of psbuff.c:16-219, include/kernel/psbuff.h:20-161. -/
def sint (n : Nat) : Int := if n < 2 ^ 31 then n else (n : Int) - 2 ^ 32

/-- The outcomes, in the model of psbuff.c:16-219, include/kernel/psbuff.h:20-161. -/
inductive Err where
  | ENOSPC | EPERM
  deriving DecidableEq, Repr

/-- Result of a call returning a pointer: the offset of the pointer, or an error. Belongs to the model of psbuff.c:16-219, include/kernel/psbuff.h:20-161. -/
abbrev Res := Except Err Int

/-- psbuff.h:45-48 psb_headroom (aosl_psb_headroom, psbuff.c:134) -/
def headroom (p : Psb) : Nat := u32i p.off
/-- psbuff.h:56-59 psb_tailroom -/
def tailroom (p : Psb) : Nat := u32i (p.size - p.len - p.off)

/-- psbuff.h:69-80 psb_reserve, called through psbuff.c:166-169 -/
def reserve (p : Psb) (n : Nat) : Psb × Except Err Unit :=
  if p.len > 0 then (p, .error .EPERM)
  else if u64i (p.size - p.off) ≥ u32 n then ({ p with off := p.off + u32 n }, .ok ())
  else (p, .error .ENOSPC)

/-- psbuff.h:87-96 psb_put, called through psbuff.c:171-174 -/
def put (p : Psb) (n : Nat) : Psb × Res :=
  if p.off + p.len + u32 n ≤ p.size then ({ p with len := (p.len + u32 n) % 2 ^ 64 }, .ok (p.off + p.len))
  else (p, .error .ENOSPC)

/-- psbuff.h:103-113 psb_get, called through psbuff.c:176-179 -/
def get (p : Psb) (n : Nat) : Psb × Res :=
  if p.len ≥ u32 n then ({ p with off := p.off + u32 n, len := p.len - u32 n }, .ok p.off)
  else (p, .error .ENOSPC)

/-- psbuff.h:120-126 psb_peek, called through psbuff.c:181-184 -/
def peek (p : Psb) (n : Nat) : Res := if p.len ≥ u32 n then .ok p.off else .error .ENOSPC

/-- psbuff.h:133-141 psb_push, called through psbuff.c:186-189 -/
def push (p : Psb) (n : Nat) : Psb × Res :=
  if p.off < sint (u32 n) then (p, .error .ENOSPC)
  else ({ p with len := (p.len + u32 n) % 2 ^ 64, off := p.off - u32 n }, .ok (p.off - u32 n))

/-- psbuff.h:153-161 psb_pull, called through psbuff.c:191-194 -/
def pull (p : Psb) (n : Nat) : Psb × Res :=
  if p.len < u32 n then (p, .error .ENOSPC)
  else ({ p with len := p.len - u32 n, off := p.off + u32 n }, .ok (p.off + u32 n))

/-- psbuff.c:201-209 aosl_psb_reset, one segment -/
def resetOne (p : Psb) : Psb := { p with off := 0, len := 0 }

/-- psbuff.c:16-36, 41-70: a freshly allocated segment (contents of the buffer are arbitrary). -/
def fresh (size : Nat) (mem : Int → UInt8) : Psb := ⟨0, 0, size, mem⟩

/-- psbuff.c:154-164 aosl_psb_total_len; a chain is the list of its segments. -/
def totalLen : List Psb → Nat := fun c => c.foldl (fun total p => (total + p.len) % 2 ^ 64) 0
/-- psbuff.c:201-209 aosl_psb_reset -/
def reset (c : List Psb) : List Psb := c.map resetOne

/-- The user's `memcpy (ptr, bytes)` into the buffer at an offset. Belongs to the model of psbuff.c:16-219, include/kernel/psbuff.h:20-161. -/
def store (m : Int → UInt8) (o : Int) (bs : List UInt8) : Int → UInt8 :=
  fun x => if o ≤ x ∧ x < o + bs.length then bs.getD (x - o).toNat 0 else m x
/-- The user's read of `n` bytes at an offset. Belongs to the model of psbuff.c:16-219, include/kernel/psbuff.h:20-161. -/
def load (m : Int → UInt8) (o : Int) (n : Nat) : List UInt8 := (List.range n).map fun (i : Nat) => m (o + i)

/-! ### Ownership of buffers -/

/-- A buffer in memory: library-allocated or the user's. Belongs to the model of psbuff.c:16-219, include/kernel/psbuff.h:20-161. -/
structure Owned where
  /-- `psb->head`: id of the buffer, `none` is NULL -/
  head : Option Nat
  size : Nat
  /-- flags & PSB_USER_BUFFER -/
  user : Bool
  deriving DecidableEq, Repr

/-- Allocation state: the live psb objects by id, the ids of library buffers in order of allocation,
    the buffers passed to aosl_free, in order. Ids of library buffers and psbs are fresh numbers. Belongs to the model of psbuff.c:16-219, include/kernel/psbuff.h:20-161. -/
structure World where
  psbs : List (Nat × Owned)
  nextPsb : Nat
  nextBuf : Nat
  libBufs : List Nat
  freed : List Nat
  deriving DecidableEq, Repr

/-- The state at the beginning, in the model of psbuff.c:16-219, include/kernel/psbuff.h:20-161. -/
def World.init : World := ⟨[], 0, 0, [], []⟩

/-- psbuff.c:39 -/
def MAX_SPB_SIZE : Nat := 8 * 2 ^ 20

/-- psbuff.c:41-70 alloc_psb (allocation failure not modelled). Library buffers get even ids. -/
def World.alloc (w : World) (size : Nat) : World :=
  if size > MAX_SPB_SIZE then w
  else if size > 0 then
    { w with psbs := (w.nextPsb, ⟨some (2 * w.nextBuf), size, false⟩) :: w.psbs, nextPsb := w.nextPsb + 1,
             nextBuf := w.nextBuf + 1, libBufs := 2 * w.nextBuf :: w.libBufs }
  else { w with psbs := (w.nextPsb, ⟨none, 0, false⟩) :: w.psbs, nextPsb := w.nextPsb + 1 }

/-- psbuff.c:16-36 alloc_user_psb. The user's buffers have odd ids. -/
def World.allocUser (w : World) (buf bufsz : Nat) : World :=
  { w with psbs := (w.nextPsb, ⟨if bufsz > 0 then some (2 * buf + 1) else none, bufsz, true⟩) :: w.psbs,
           nextPsb := w.nextPsb + 1 }

/-- aosl_free (NULL is ignored). Belongs to the model of psbuff.c:16-219, include/kernel/psbuff.h:20-161. -/
def World.free (w : World) (b : Option Nat) : World :=
  match b with
  | none => w
  | some b => { w with freed := b :: w.freed }

/-- Belongs to the model of psbuff.c:16-219, include/kernel/psbuff.h:20-161. -/
def World.setPsb (w : World) (p : Nat) (o : Owned) : World :=
  { w with psbs := w.psbs.map fun e => if e.1 = p then (p, o) else e }

/-- psbuff.c:80-95 psb_attach_buf. Note that it leaves the flags alone. -/
def World.attach (w : World) (p : Nat) (buf bufsz : Nat) : World :=
  match w.psbs.lookup p with
  | none => w
  | some o =>
    let w := if o.size > 0 ∧ o.user = false then w.free o.head else w
    w.setPsb p { o with head := if bufsz > 0 then some (2 * buf + 1) else none, size := bufsz }

/-- psbuff.c:97-112 psb_detach_buf -/
def World.detach (w : World) (p : Nat) : World :=
  match w.psbs.lookup p with
  | none => w
  | some o =>
    if o.size > 0 then
      let w := if o.user = false then w.free o.head else w
      w.setPsb p { o with head := none, size := 0 }
    else w

/-- psbuff.c:72-78 free_psb -/
def World.freePsb (w : World) (p : Nat) : World :=
  match w.psbs.lookup p with
  | none => w
  | some o =>
    let w := if o.user = false ∧ o.head ≠ none then w.free o.head else w
    { w with psbs := w.psbs.filter fun e => e.1 ≠ p }

/-- psbuff.c:211-219 aosl_free_psb_list: the chain is the list of its psbs. -/
def World.freeList (w : World) (chain : List Nat) : World := chain.foldl World.freePsb w

end Verif.Psb
