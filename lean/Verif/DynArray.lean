/-!
  Model of the dynamic arrays, byte buffers and strings, lib/marshalling.c:22-200, and of the release of a
  dynamic array by aosl_fini_typed_obj (1120-1129), whose elements own nothing.

  `α` is the element type (UInt8 for bytes and strings), `z` its zero. The heap is explicit, so that reading
  outside a block, use after free, double free and leaks are visible: an operation yields `none` when it
  touches memory that it must not touch. `oom`: the allocation, if there is one, fails.
  Arguments (elements, C strings) are values: an argument inside the array's own memory is not modelled.
-/
namespace Verif.DynArray

variable {α : Type}

/-- aosl_marshalling.h:53-65 -/
structure Arr where
  count : Nat
  allocated : Nat
  ptr : Option Nat

/-- The arrays of the program and the heap; an element of a block is `none` before it is written. Belongs to the model of lib/marshalling.c:22-200. -/
structure St (α : Type) where
  arr : Nat → Arr
  heap : Nat → Option (List (Option α))
  next : Nat

/-- 22-24 -/
abbrev MAX_COUNT : Nat := 10240

inductive Rc where
  | ok | e2big | enomem
  /-- `return -1`, 102 -/
  | minus1
  deriving DecidableEq, Repr

/-- Belongs to the model of lib/marshalling.c:22-200. -/
def St.setArr (s : St α) (i : Nat) (a : Arr) : St α := { s with arr := fun j => if j = i then a else s.arr j }
/-- Belongs to the model of lib/marshalling.c:22-200. -/
def St.setHeap (s : St α) (p : Nat) (b : Option (List (Option α))) : St α := { s with heap := fun q => if q = p then b else s.heap q }

/-- aosl_malloc that succeeds. Belongs to the model of lib/marshalling.c:22-200. -/
def alloc (s : St α) (n : Nat) : St α × Nat :=
  ({ (s.setHeap s.next (some (List.replicate n none))) with next := s.next + 1 }, s.next)

/-- aosl_free. Belongs to the model of lib/marshalling.c:22-200. -/
def release (s : St α) (p : Option Nat) : Option (St α) :=
  p.bind fun p => match s.heap p with | some _ => some (s.setHeap p none) | none => none

/-- read the first n elements of a block. Belongs to the model of lib/marshalling.c:22-200. -/
def rd (s : St α) (p : Option Nat) (n : Nat) : Option (List (Option α)) :=
  p.bind fun p => (s.heap p).bind fun b => if n ≤ b.length then some (b.take n) else none

/-- write `xs` at `off`. Belongs to the model of lib/marshalling.c:22-200. -/
def wr (s : St α) (p : Option Nat) (off : Nat) (xs : List (Option α)) : Option (St α) :=
  p.bind fun p => (s.heap p).bind fun b =>
    if off + xs.length ≤ b.length then some (s.setHeap p (some (b.take off ++ xs ++ b.drop (off + xs.length)))) else none

/-- 53-55, 155-157: `while (allocated < target) allocated += stride`, stride = k + 1. The 16-bit variable does
    not wrap, see `grow_bound`. -/
def grow (k a t : Nat) : Nat := if a < t then grow k (a + (k + 1)) t else a
termination_by t - a

/-- 57-72, 159-174: the reallocation; `some none`: ENOMEM -/
def reserve (k : Nat) (s : St α) (i target : Nat) (oom : Bool) : Option (Option (St α)) :=
  let a := s.arr i
  let al := grow k a.allocated target
  if a.allocated < al then
    if oom then some none
    else
      let (s1, q) := alloc s al
      (if 0 < a.count then (rd s1 a.ptr a.count).bind fun old => wr s1 (some q) 0 old else some s1).bind fun s2 =>
      (if 0 < a.allocated then release s2 a.ptr else some s2).bind fun s3 =>
      some (some (s3.setArr i { a with ptr := some q, allocated := al }))
  else some (some s)

/-- 26-31 aosl_dynamic_array_init -/
def init (s : St α) (i : Nat) : St α := s.setArr i ⟨0, 0, none⟩

/-- 33-38 aosl_dynamic_array_init_with: the block `data` was allocated by the caller; no data: NULL (a block of
    size 0 would not be released) -/
def initWith (s : St α) (i : Nat) (data : List α) : St α :=
  if data.isEmpty then s.setArr i ⟨0, 0, none⟩
  else
    let s1 := { (s.setHeap s.next (some (data.map some))) with next := s.next + 1 }
    s1.setArr i ⟨data.length % 65536, data.length % 65536, some s.next⟩

/-- 40-80 aosl_dynamic_array_add_elems -/
def addElems (s : St α) (i : Nat) (xs : List α) (oom : Bool) : Option (Rc × St α) :=
  let a := s.arr i
  if a.count ≥ MAX_COUNT then some (.e2big, s)
  else if xs.length ≥ MAX_COUNT then some (.e2big, s)
  else if xs.length + a.count ≥ MAX_COUNT then some (.e2big, s)
  else
    (reserve 3 s i (a.count + xs.length) oom).bind fun r =>
      match r with
      | none => some (.enomem, s)
      | some s1 =>
        if 0 < xs.length then
          (wr s1 (s1.arr i).ptr a.count (xs.map some)).bind fun s2 =>
            some (.ok, s2.setArr i { (s2.arr i) with count := a.count + xs.length })
        else some (.ok, s1)

/-- 82-95 aosl_dynamic_array_take -/
def take (s : St α) (d r : Nat) : Option (Rc × St α) :=
  (if 0 < (s.arr d).allocated then release s (s.arr d).ptr else some s).bind fun s1 =>
    some (.ok, (s1.setArr d (s1.arr r)).setArr r ⟨0, 0, none⟩)

/-- 97-100 aosl_dynamic_array_is_empty -/
def isEmpty (s : St α) (i : Nat) : Bool := (s.arr i).count == 0

/-- 102-126 aosl_dynamic_bytes_copy -/
def copy (z : α) (s : St α) (d r : Nat) (oom : Bool) : Option (Rc × St α) :=
  let a := s.arr r
  if 0 < a.allocated then
    if oom then some (.minus1, s)
    else
      let (s1, q) := alloc s a.allocated
      (rd s1 a.ptr a.count).bind fun b =>
      (wr s1 (some q) 0 b).bind fun s2 =>
      (if a.allocated > a.count then wr s2 (some q) a.count [some z] else some s2).bind fun s3 =>
      (if 0 < (s3.arr d).allocated then release s3 (s3.arr d).ptr else some s3).bind fun s4 =>
      some (.ok, s4.setArr d { a with ptr := some q })
  else
    (if 0 < (s.arr d).allocated then release s (s.arr d).ptr else some s).bind fun s4 =>
      some (.ok, s4.setArr d { a with ptr := none })

/-- 135-139 aosl_dynamic_bytes_copy_data -/
def copyData (s : St α) (i : Nat) (xs : List α) (oom : Bool) : Option (Rc × St α) :=
  addElems (s.setArr i { (s.arr i) with count := 0 }) i xs oom

/-- 141-180 aosl_dynamic_string_strcat -/
def strcat (z : α) (s : St α) (i : Nat) (xs : List α) (oom : Bool) : Option (Rc × St α) :=
  let a := s.arr i
  if a.count ≥ MAX_COUNT then some (.e2big, s)
  else if xs.length ≥ MAX_COUNT then some (.e2big, s)
  else if xs.length + a.count ≥ MAX_COUNT then some (.e2big, s)
  else
    (reserve 15 s i (a.count + xs.length + 1) oom).bind fun r =>
      match r with
      | none => some (.enomem, s)
      | some s1 =>
        (if 0 < xs.length then
          (wr s1 (s1.arr i).ptr a.count (xs.map some)).bind fun s2 =>
            some (s2.setArr i { (s2.arr i) with count := a.count + xs.length })
        else some s1).bind fun s3 =>
        (wr s3 (s3.arr i).ptr (s3.arr i).count [some z]).bind fun s4 => some (.ok, s4)

/-- 182-186 aosl_dynamic_string_strcpy -/
def strcpy (z : α) (s : St α) (i : Nat) (xs : List α) (oom : Bool) : Option (Rc × St α) :=
  strcat z (s.setArr i { (s.arr i) with count := 0 }) i xs oom

/-- 188-198 aosl_dynamic_string_strcpy_out: what is written to the buffer. For buf_sz = 0, `buf_sz - 1` is
    the largest size_t and the count is copied. -/
def strcpyOut (z : α) (s : St α) (i bufSz : Nat) : Option (List (Option α)) :=
  let n := (s.arr i).count
  let n := if n ≥ bufSz then (if bufSz = 0 then 2 ^ 64 - 1 else bufSz - 1) else n
  (if n = 0 then some [] else rd s (s.arr i).ptr n).bind fun b => some (b ++ [some z])

/-- 1120-1129: the release of a dynamic array -/
def fini (s : St α) (i : Nat) : Option (Rc × St α) :=
  (if 0 < (s.arr i).allocated then release s (s.arr i).ptr else some s).bind fun s1 =>
    some (.ok, s1.setArr i ⟨0, 0, none⟩)

/-- memcmp: the difference at the first position where the bytes differ. Belongs to the model of lib/marshalling.c:22-200. -/
def memcmp : List UInt8 → List UInt8 → Int
  | a :: as, b :: bs => if a = b then memcmp as bs else (a.toNat : Int) - b.toNat
  | _, _ => 0

/-- 113-119 aosl_dynamic_bytes_compare, on the contents -/
def compare (a b : List UInt8) : Int :=
  if a.length ≠ b.length then (a.length : Int) - b.length else memcmp a b

/-- The operations, for histories. Belongs to the model of lib/marshalling.c:22-200. -/
inductive Op (α : Type) where
  | add (i : Nat) (xs : List α)
  | copyData (i : Nat) (xs : List α)
  | strcat (i : Nat) (xs : List α)
  | strcpy (i : Nat) (xs : List α)
  | take (d r : Nat)
  | copy (d r : Nat)
  | fini (i : Nat)
  /-- `init_with` of an array that was released -/
  | finiInitWith (i : Nat) (data : List α)

/-- What one event does, in the model of lib/marshalling.c:22-200. -/
def step (z : α) (s : St α) (oom : Bool) : Op α → Option (Rc × St α)
  | .add i xs => addElems s i xs oom
  | .copyData i xs => copyData s i xs oom
  | .strcat i xs => strcat z s i xs oom
  | .strcpy i xs => strcpy z s i xs oom
  | .take d r => take s d r
  | .copy d r => copy z s d r oom
  | .fini i => fini s i
  | .finiInitWith i data => (fini s i).bind fun (_, s1) => some (.ok, initWith s1 i data)

end Verif.DynArray
