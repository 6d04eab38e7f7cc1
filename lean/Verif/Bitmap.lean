/-!
  Model of lib/bitmap.c.

  A byte is a `BitVec 8`. Every index parameter is a C `uint8_t`: the model takes a natural number and
  applies the implicit conversion (`% 256`) that C applies at the call. Not modelled: failure of the
  two allocations in `bitmap_create` (it returns NULL then, as for size 0) and `bitmap_destroy`.
-/
namespace Verif.Bitmap

/-- Outcome of a call: a value, an abort by BUG_ON, or an access outside the byte array. Belongs to the model of lib/bitmap.c:14-141. -/
inductive Out (α : Type) where
  | val (a : α)
  | bug
  | oob
  deriving DecidableEq, Repr

/-- include/kernel/bitmap.h: bit_arr (bit_arr_cnt is its length), bit_cnt. Belongs to the model of lib/bitmap.c:14-141. -/
structure Bitmap where
  arr : List (BitVec 8)
  cnt : Nat
  deriving DecidableEq, Repr

/-- lib/bitmap.c:14 BIT_ARRAY_CNT -/
def arrCnt (n : Nat) : Nat := (n + 8 - 1) / 8

/-- lib/bitmap.c:16-41 bitmap_create -/
def create (bitCnt : Nat) : Option Bitmap :=
  let n := bitCnt % 256
  if n = 0 then none else some ⟨List.replicate (arrCnt n) 0#8, n⟩

/-- lib/bitmap.c:56-66 bitmap_set. The write is modelled with `List.set`, which ignores an index
    outside the array; `C15_bitmap_set` shows the index is inside. -/
def Bitmap.set (b : Bitmap) (i : Nat) : Bitmap :=
  let i := i % 256
  if i ≥ b.cnt then b
  else { b with arr := b.arr.set (i / 8) (b.arr.getD (i / 8) 0#8 ||| (1#8 <<< (i % 8))) }

/-- lib/bitmap.c:68-78 bitmap_clear -/
def Bitmap.clear (b : Bitmap) (i : Nat) : Bitmap :=
  let i := i % 256
  if i ≥ b.cnt then b
  else { b with arr := b.arr.set (i / 8) (b.arr.getD (i / 8) 0#8 &&& ~~~(1#8 <<< (i % 8))) }

/-- lib/bitmap.c:80-87 bitmap_reset -/
def Bitmap.reset (b : Bitmap) : Bitmap := { b with arr := List.replicate b.arr.length 0#8 }

/-- lib/bitmap.c:89-98 bitmap_get. Note the guard is `i > bit_cnt`, as in the code. -/
def Bitmap.get (b : Bitmap) (i : Nat) : Out Bool :=
  let i := i % 256
  if i > b.cnt then .bug
  else match b.arr[i / 8]? with
    | none => .oob
    | some v => .val (v &&& (1#8 <<< (i % 8)) != 0#8)

/-- lib/bitmap.c:100-108 bitmap_copy; a source array longer than the target would be `oob`. -/
def Bitmap.copy (self src : Bitmap) : Out Bitmap :=
  if self.cnt < src.cnt then .bug
  else if self.reset.arr.length < src.arr.length then .oob
  else .val { self with arr := src.arr ++ self.reset.arr.drop src.arr.length }

/-- lib/bitmap.c:128-137 the inner loop over one byte: bits `k, k+1, .. 7`, `n` iterations left. -/
def scanByte (cnt : Nat) (v : BitVec 8) : (n k bitpos : Nat) → Int ⊕ Nat
  | 0, _, bitpos => .inr bitpos
  | n + 1, k, bitpos =>
    if bitpos ≥ cnt then .inl (-1)
    else if v &&& (1#8 <<< k) = 0#8 then .inl bitpos
    else scanByte cnt v n (k + 1) (bitpos + 1)

/-- lib/bitmap.c:117-140 the outer loop -/
def scanBytes (cnt : Nat) : List (BitVec 8) → Nat → Int
  | [], _ => -1
  | v :: vs, bitpos =>
    if v = 0xFF#8 then scanBytes cnt vs (bitpos + 8)
    else match scanByte cnt v 8 0 bitpos with
      | .inl r => r
      | .inr bitpos' => scanBytes cnt vs bitpos'

/-- lib/bitmap.c:110-141 bitmap_find_first_zero_bit -/
def Bitmap.findFirstZero (b : Bitmap) : Int := scanBytes b.cnt b.arr 0

end Verif.Bitmap
