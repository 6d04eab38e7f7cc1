/-!
# The table of call sites of the memory statistics

Models mm/mm.c with `CONFIG_AOSL_MEM_STAT` and `CONFIG_AOSL_MEM_DUMP`: `__mm_pos_cmp` (mm.c:104-130), `MM_IGNORE_NODE_CHECK` (mm.c:40-49), `__mm_pos_walk` and `__mm_ptr_walk` (mm.c:73-86,
132-143), `mm_insert_ptr_dbg` (mm.c:178-220), `mm_remove_ptr` (mm.c:229-285), `aosl_memdump` (mm.c:297-326), `k_mm_init`, `k_mm_fini` (mm.c:361-385), and the recording of
`aosl_malloc_impl_dbg`, `aosl_calloc_impl_dbg`, `aosl_realloc_impl_dbg`, `aosl_strdup_impl_dbg` (mm.c:474-528), `aosl_free_impl` (mm.c:405-412) and of the forms without a call site.

The calls are made one after the other (`Mm` has the interleavings; its findings about `realloc` are not repeated here).  The red-black trees are lists: the tree of
call sites is kept in the order of its comparator, the tree of pointers in the order of insertion (its order is not observable).  `__mem_used` is an integer.  The
allocations of the nodes themselves succeed.
-/

namespace Verif.MmPos

/-- `strcmp` on the bytes before the NUL; only the sign counts (mm.c:119). -/
def strcmp : List Nat → List Nat → Int
  | [], [] => 0
  | [], _ :: _ => -1
  | _ :: _, [] => 1
  | x :: xs, y :: ys => if x < y then -1 else if y < x then 1 else strcmp xs ys

/-- `func` and `line`. Belongs to the model of mm.c:104-130, mm.c:40-49, mm.c:73-86. -/
abbrev Site := List Nat × Int

/-- `__mm_pos_cmp` (mm.c:118-129). -/
def posCmp (a b : Site) : Int :=
  if strcmp a.1 b.1 ≠ 0 then (if strcmp a.1 b.1 > 0 then 1 else -1)
  else if a.2 = b.2 then 0
  else if a.2 > b.2 then 1 else -1

/-- `struct mm_ptr_node` (mm.c:30-39); `func` may be NULL. -/
structure Blk where
  ptr : Nat
  size : Nat
  func : Option (List Nat)
  line : Int
deriving DecidableEq, Repr

/-- `func != NULL && line != 0` (mm.c:199, 256). -/
def siteOf (b : Blk) : Option Site :=
  match b.func with
  | some f => if b.line ≠ 0 then some (f, b.line) else none
  | none => none

/-- `struct mm_pos_node` (mm.c:89-95). -/
structure Pos where
  site : Site
  cnts : Int
  size : Nat
deriving DecidableEq, Repr

/-- `__mem_check_inited`, the blocks the program has from the HAL, the two trees, `__mem_used` (mm.c:168-176). -/
structure St where
  inited : Bool
  hal : List Nat
  ptrs : List Blk
  pos : List Pos
  used : Int
deriving DecidableEq, Repr

/-- The state at the beginning, in the model of mm.c:104-130, mm.c:40-49, mm.c:73-86. -/
def St.init : St := ⟨false, [], [], [], 0⟩

/-- `aosl_rb_insert_node`: after the nodes that are not greater. Belongs to the model of mm.c:104-130, mm.c:40-49, mm.c:73-86. -/
def posInsert : List Pos → Pos → List Pos
  | [], e => [e]
  | x :: xs, e => if posCmp x.site e.site > 0 then e :: x :: xs else x :: posInsert xs e

/-- `aosl_find_rb_node` (mm.c:201, 257). -/
def posFind (t : List Pos) (k : Site) : Option Pos := t.find? (fun x => posCmp x.site k == 0)

/-- The fields of the node found are changed in place. Belongs to the model of mm.c:104-130, mm.c:40-49, mm.c:73-86. -/
def posSet (t : List Pos) (k : Site) (f : Pos → Pos) : List Pos := t.map (fun x => if posCmp x.site k = 0 then f x else x)

/-- `aosl_rb_remove (&__mm_pos_tree, rb_node)` (mm.c:263). -/
def posErase (t : List Pos) (k : Site) : List Pos := t.filter (fun x => posCmp x.site k ≠ 0)

/-- `sizeof (struct mm_ptr_node)` and `sizeof (struct mm_pos_node)`. Belongs to the model of mm.c:104-130, mm.c:40-49, mm.c:73-86. -/
structure Ov where
  ptrNode : Nat
  posNode : Nat

/-- `mm_insert_ptr_dbg` (mm.c:178-220). -/
def insertPtr (ov : Ov) (s : St) (b : Blk) : St :=
  if s.inited = false then s
  else if b.ptr = 0 then s
  else
    let s1 := { s with ptrs := b :: s.ptrs, used := s.used + (b.size + ov.ptrNode : Nat) }
    match siteOf b with
    | none => s1
    | some k =>
      match posFind s1.pos k with
      | some _ => { s1 with pos := posSet s1.pos k (fun p => { p with cnts := p.cnts + 1, size := p.size + b.size }) }
      | none => { s1 with pos := posInsert s1.pos ⟨k, 0 + 1, 0 + b.size⟩, used := s1.used + (ov.posNode : Nat) }

/-- `mm_remove_ptr` (mm.c:229-285). -/
def removePtr (ov : Ov) (s : St) (p : Nat) : St :=
  if s.inited = false then s
  else if p = 0 then s
  else
    match s.ptrs.find? (fun b => b.ptr == p) with
    | none => s
    | some b =>
      let s1 := { s with ptrs := s.ptrs.eraseP (fun b => b.ptr == p), used := s.used - (b.size + ov.ptrNode : Nat) }
      match siteOf b with
      | none => s1
      | some k =>
        match posFind s1.pos k with
        | none => s1
        | some e =>
          if e.cnts - 1 = 0 then { s1 with pos := posErase s1.pos k, used := s1.used - (ov.posNode : Nat) }
          else { s1 with pos := posSet s1.pos k (fun p => { p with cnts := p.cnts - 1, size := p.size - b.size }) }

inductive Op
  /-- `aosl_malloc`, `aosl_calloc`, `aosl_strdup`: the HAL gives `ptr` -/
  | alloc (b : Blk)
  /-- `aosl_free` -/
  | free (p : Nat)
  /-- `aosl_realloc (p, b.size)` gives `b.ptr`; `p` may be NULL -/
  | realloc (p : Nat) (b : Blk)
  /-- `aosl_realloc` fails (mm.c:505-508): nothing happens -/
  | reallocFail (p : Nat)
  /-- `k_mm_init`, `k_mm_fini` (mm.c:361-385), which come in turns (`C60`) -/
  | mmInit
  | mmFini
deriving DecidableEq, Repr

/-- One call; `none` if a program that respects its allocator cannot make it. Belongs to the model of mm.c:104-130, mm.c:40-49, mm.c:73-86. -/
def step (ov : Ov) (s : St) : Op → Option St
  | .alloc b => if b.ptr ≠ 0 ∧ b.ptr ∉ s.hal then some (insertPtr ov { s with hal := b.ptr :: s.hal } b) else none
  | .free p => if p = 0 ∨ p ∈ s.hal then some { removePtr ov s p with hal := s.hal.erase p } else none
  | .realloc p b =>
    if (p = 0 ∨ p ∈ s.hal) ∧ b.ptr ≠ 0 ∧ (b.ptr = p ∨ b.ptr ∉ s.hal) then
      some (insertPtr ov { removePtr ov s p with hal := b.ptr :: s.hal.erase p } b)
    else none
  | .reallocFail p => if p = 0 ∨ p ∈ s.hal then some s else none
  | .mmInit => if s.inited = false then some { s with inited := true, used := 0 } else none
  | .mmFini => if s.inited = true then some { s with inited := false, ptrs := [], pos := [], used := 0 } else none

/-- One event after the other, in the model of mm.c:104-130, mm.c:40-49, mm.c:73-86; no code of its own. -/
def run (ov : Ov) : St → List Op → Option St
  | s, [] => some s
  | s, op :: ops => match step ov s op with
    | none => none
    | some s' => run ov s' ops

/-- `strstr (s, t) != NULL`. Belongs to the model of mm.c:104-130, mm.c:40-49, mm.c:73-86. -/
def strstr (s t : List Nat) : Bool :=
  match s with
  | [] => t.isEmpty
  | x :: xs => t.isPrefixOf (x :: xs) || strstr xs t

/-- Belongs to the model of mm.c:104-130, mm.c:40-49, mm.c:73-86. -/
def bytes (s : String) : List Nat := s.toList.map Char.toNat

/-- `MM_IGNORE_NODE_CHECK` (mm.c:40-49). -/
def ignored (f : List Nat) : Bool :=
  strstr f (bytes "__mpqp_") || strstr f (bytes "__q_") || f == bytes "____add_f" || f == bytes "__create_timer_on_q" || f == bytes "expand_fdtable_locked"

/-- A line of the dump: `index`, `cnts`, `(uint32_t)size`, `func`, `line` (mm.c:139-140). -/
structure Line where
  index : Nat
  cnts : Int
  size : Nat
  func : List Nat
  line : Int
deriving DecidableEq, Repr

/-- `aosl_rb_traverse_ldr (&__mm_pos_tree, __mm_pos_walk, &index)`. Belongs to the model of mm.c:104-130, mm.c:40-49, mm.c:73-86. -/
def walk : List Pos → Nat → List Line
  | [], _ => []
  | p :: ps, i => if ignored p.site.1 then walk ps i else ⟨i, p.cnts, p.size % 2 ^ 32, p.site.1, p.site.2⟩ :: walk ps (i + 1)

/-- `aosl_memdump` (mm.c:297-326): the number of call sites and the bytes in the header, then the lines; `none`: nothing is printed. -/
def memdump (s : St) : Option (Nat × Int × List Line) :=
  if s.inited = false then none else some (s.pos.length, s.used % 2 ^ 32, walk s.pos 0)

end Verif.MmPos
