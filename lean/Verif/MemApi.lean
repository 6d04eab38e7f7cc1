/-!
# aosl_calloc, aosl_strdup and aosl_memdump_r

Models mm/mm.c:387-402 (`aosl_malloc_impl`), 413-424 (`aosl_calloc_impl`), 439-452 (`aosl_strdup_impl`), 139-161 (`__mm_pos_walk_r`) and 322-359
(`aosl_memdump_r`).

Memory is a list of cells; `none` is a cell that has not been written.  An access outside of a block is the outcome `oob`.
`size_t` has `w` bits.  The formatting of one line (`snprintf` with its literal format) is not modelled: the lines come in as texts.
The tree of call sites is the list of its entries in traversal order (C07).
-/

namespace Verif.MemApi

/-- The outcome of a piece of code that accesses memory. Belongs to the model of mm/mm.c:387-402. -/
inductive R (α : Type)
  | ok (a : α)
  /-- an access outside of the block -/
  | oob
  /-- `abort ()` -/
  | abort
deriving DecidableEq, Repr

/-- A block: its cells. Belongs to the model of mm/mm.c:387-402. -/
abbrev Blk (α : Type) := List (Option α)

/-- One write. Belongs to the model of mm/mm.c:387-402. -/
def wr {α : Type} (m : Blk α) (i : Nat) (c : α) : R (Blk α) := if i < m.length then .ok (m.set i (some c)) else .oob

/-! ## calloc and strdup -/

/-- `aosl_malloc_impl` (mm.c:387-402): a block of `n` unwritten cells, or an abort; `avail` is what the HAL can give. -/
def malloc {α : Type} (avail n : Nat) : R (Blk α) := if n ≤ avail then .ok (List.replicate n none) else .abort

/-- `memset (p, v, n)` and `memcpy` to the start of the block: writes the values one after the other from index `i`. Belongs to the model of mm/mm.c:387-402. -/
def wrs {α : Type} (m : Blk α) (i : Nat) : List α → R (Blk α)
  | [] => .ok m
  | c :: cs => match wr m i c with
    | .ok m' => wrs m' (i + 1) cs
    | .oob => .oob
    | .abort => .abort

/-- `aosl_calloc_impl` (mm.c:413-424). -/
def calloc (w avail nmemb size : Nat) : R (Blk Nat) :=
  let sz := nmemb * size % 2 ^ w
  match malloc avail sz with
  | .ok m => wrs m 0 (List.replicate sz 0)
  | .oob => .oob
  | .abort => .abort

/-- `aosl_strdup_impl` (mm.c:439-452) of a string with these bytes before its NUL. -/
def strdup (w avail : Nat) (s : List Nat) : R (Blk Nat) :=
  match malloc avail ((s.length + 1) % 2 ^ w) with
  | .ok m => match wrs m 0 s with
    | .ok m' => wr m' s.length 0
    | .oob => .oob
    | .abort => .abort
  | .oob => .oob
  | .abort => .abort

/-! ## aosl_memdump_r -/

/-- NUL. Belongs to the model of mm/mm.c:387-402. -/
def nul : Char := '\x00'

/-- `snprintf (&buf [off], n, ...)` giving `t`: as many characters as fit before a NUL. Belongs to the model of mm/mm.c:387-402. -/
def snprintf (m : Blk Char) (off n : Nat) (t : List Char) : R (Blk Char) := if n = 0 then .ok m else wrs m off (t.take (n - 1) ++ [nul])

/-- An entry of the tree: `none` for one that `MM_IGNORE_NODE_CHECK` passes over, else the text of its line. Belongs to the model of mm/mm.c:387-402. -/
abbrev Entry := Option (List Char)

/-- `struct mm_walk_arg` (mm.c:96-100): the buffer, `arg.buf - buf`, `arg.len`, `arg.index`. -/
structure Arg where
  m : Blk Char
  off : Nat
  len : Nat
  index : Nat
deriving DecidableEq, Repr

/-- The traversal with `__mm_pos_walk_r` (mm.c:139-161): it ends at the first entry for which the function does not return 0. -/
def walk (a : Arg) : List Entry → R Arg
  | [] => .ok a
  | e :: es =>
    if a.len < 1 then .ok a
    else match e with
      | none => walk a es
      | some t => match snprintf a.m a.off a.len t with
        | .ok m' =>
          if t.length ≥ a.len ∨ t.length = 0 then
            match wr m' a.off nul with
            | .ok m'' => .ok { a with m := m'' }
            | .oob => .oob
            | .abort => .abort
          else walk { m := m', off := a.off + t.length, len := a.len - t.length, index := a.index + 1 } es
        | .oob => .oob
        | .abort => .abort

/-- One read. Belongs to the model of mm/mm.c:387-402. -/
def rd (m : Blk Char) (i : Nat) : R (Option Char) := match m[i]? with
  | some c => .ok c
  | none => .oob

/-- The end of `aosl_memdump_r` (mm.c:345-352): the last comma and newline are cut off. -/
def finish (m : Blk Char) (len left : Nat) : R (Blk Char) :=
  if left < len then
    match rd m (len - left - 1 - 1) with
    | .ok c => match if c = some ',' then wr m (len - left - 1 - 1) nul else .ok m with
      | .ok m' => wr m' (len - left - 1 - 1 + 1) nul
      | .oob => .oob
      | .abort => .abort
    | .oob => .oob
    | .abort => .abort
  else wr m (0 + 1) nul

/-- `aosl_memdump_r` (mm.c:322-359) with a positive `len`, the size of the buffer: the buffer, `cnts [0]` and `cnts [1]`. -/
def memdump (m : Blk Char) (es : List Entry) : R (Blk Char × Nat × Nat) :=
  match walk ⟨m, 0, m.length, 0⟩ es with
  | .ok a => match finish a.m m.length a.len with
    | .ok m' => .ok (m', es.length, a.index)
    | .oob => .oob
    | .abort => .abort
  | .oob => .oob
  | .abort => .abort

/-! ## Specification -/

/-- The block begins with this C string. Belongs to the model of mm/mm.c:387-402. -/
def IsStr (m : Blk Char) (s : List Char) : Prop := ∃ rest, m = s.map some ++ some nul :: rest ∧ nul ∉ s

/-- The lines that fit into a buffer of `n` characters, one after the other, with the NUL: the ignored ones are passed over, and the first one that does not fit ends the list. Belongs to the model of mm/mm.c:387-402. -/
def fitting (n : Nat) : List Entry → List (List Char)
  | [] => []
  | none :: es => fitting n es
  | some t :: es => if t.length < n then t :: fitting (n - t.length) es else []

/-- Every line ends in a comma and a newline and has no NUL, as the format says. Belongs to the model of mm/mm.c:387-402. -/
def Lines (es : List Entry) : Prop := ∀ t, some t ∈ es → (∃ b, t = b ++ [',', '\n']) ∧ nul ∉ t

end Verif.MemApi
