import Verif.DynArray

/-!
  lib/marshalling.c:40-80, 135-186 when the elements or the text to add are read from memory, which may be
  the memory of the array itself: the source is an address (block, offset), read when the code reads it.
  memcpy between overlapping regions, and reading a freed block, are `none`.
-/
namespace Verif.DynSelf
open Verif.DynArray

variable {α : Type}

/-- read `n` elements of block `p` from `off` on. Belongs to the model of lib/marshalling.c:40-186. -/
def rdAt (s : St α) (p off n : Nat) : Option (List (Option α)) :=
  (s.heap p).bind fun b => if off + n ≤ b.length then some ((b.drop off).take n) else none

/-- memcpy (to + at, p + off, n): undefined when the regions have an element in common. Belongs to the model of lib/marshalling.c:40-186. -/
def memcpy (s : St α) (to : Option Nat) (at' p off n : Nat) : Option (St α) :=
  (rdAt s p off n).bind fun xs =>
    if to = some p ∧ off < at' + n ∧ at' < off + n then none else wr s to at' xs

/-- 40-80 aosl_dynamic_array_add_elems (arr i, block p + off, n) -/
def addFrom (s : St α) (i p off n : Nat) (oom : Bool) : Option (Rc × St α) :=
  let a := s.arr i
  if a.count ≥ MAX_COUNT then some (.e2big, s)
  else if n ≥ MAX_COUNT then some (.e2big, s)
  else if n + a.count ≥ MAX_COUNT then some (.e2big, s)
  else
    (reserve 3 s i (a.count + n) oom).bind fun r =>
      match r with
      | none => some (.enomem, s)
      | some s1 =>
        if 0 < n then
          (memcpy s1 (s1.arr i).ptr a.count p off n).bind fun s2 =>
            some (.ok, s2.setArr i { (s2.arr i) with count := a.count + n })
        else some (.ok, s1)

/-- 135-139 aosl_dynamic_bytes_copy_data -/
def copyDataFrom (s : St α) (i p off n : Nat) (oom : Bool) : Option (Rc × St α) :=
  addFrom (s.setArr i { (s.arr i) with count := 0 }) i p off n oom

/-- strlen: reading an element that was never written, or past the end of the block, is undefined. Belongs to the model of lib/marshalling.c:40-186. -/
def strlen [DecidableEq α] (z : α) : List (Option α) → Option Nat
  | [] => none
  | none :: _ => none
  | some c :: r => if c = z then some 0 else (strlen z r).map (· + 1)

/-- 141-180 aosl_dynamic_string_strcat (dyn_str i, block p + off) -/
def strcatFrom [DecidableEq α] (z : α) (s : St α) (i p off : Nat) (oom : Bool) : Option (Rc × St α) :=
  (s.heap p).bind fun b => (strlen z (b.drop off)).bind fun n =>
  let a := s.arr i
  if a.count ≥ MAX_COUNT then some (.e2big, s)
  else if n ≥ MAX_COUNT then some (.e2big, s)
  else if n + a.count ≥ MAX_COUNT then some (.e2big, s)
  else
    (reserve 15 s i (a.count + n + 1) oom).bind fun r =>
      match r with
      | none => some (.enomem, s)
      | some s1 =>
        (if 0 < n then
          (memcpy s1 (s1.arr i).ptr a.count p off n).bind fun s2 =>
            some (s2.setArr i { (s2.arr i) with count := a.count + n })
        else some s1).bind fun s3 =>
        (wr s3 (s3.arr i).ptr (s3.arr i).count [some z]).bind fun s4 => some (.ok, s4)

/-- 182-186 aosl_dynamic_string_strcpy -/
def strcpyFrom [DecidableEq α] (z : α) (s : St α) (i p off : Nat) (oom : Bool) : Option (Rc × St α) :=
  strcatFrom z (s.setArr i { (s.arr i) with count := 0 }) i p off oom

end Verif.DynSelf
