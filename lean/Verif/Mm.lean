/-!
# Memory accounting

Models mm/mm.c with `CONFIG_AOSL_MEM_STAT`: `mm_insert_ptr` (mm.c:174-220), `mm_remove_ptr` (mm.c:229-285), `aosl_memused` (mm.c:288-295), and around them
`aosl_malloc_impl`, `aosl_free_impl`, `aosl_realloc_impl` (mm.c:387-441), for the time between `k_mm_init` and `k_mm_fini`.

Any number of threads.  The calls of the HAL allocator and the sections under `__lock` are the steps; they are interleaved
arbitrarily.  The HAL allocator may return any address not in use.  The red-black tree of pointers is a list of nodes; with two
nodes of one key the step says which one is removed (`C62_tree_choice` in MmProps shows what the tree does).  `__mem_used` is an integer (the code's `size_t` wraps, which
an exact counter never does).  A failing `malloc` aborts; `calloc` and `strdup` are `malloc` here.  The table of call sites of `CONFIG_AOSL_MEM_DUMP` is not modelled.
-/

namespace Verif.Mm

/-- Where a thread is. Belongs to the model of mm.c:174-220, mm.c:229-285, mm.c:288-295. -/
inductive Pc
  | idle
  /-- it has the block `a` from the HAL, `mm_insert_ptr (a, n)` comes next -/
  | ins (a n : Nat)
  /-- `mm_remove_ptr` is done, `FREE (a)` comes next -/
  | fin (a : Nat)
  /-- the HAL has resized `old` (of recorded size `m`) to `new`, `mm_remove_ptr (old)` comes next, then `mm_insert_ptr (new, n)` -/
  | rm (old m new n : Nat)
deriving DecidableEq, Repr

/-- The HAL's blocks in use; the tree's nodes; `__mem_used`; the blocks the program has, with the size it asked for; the threads. Belongs to the model of mm.c:174-220, mm.c:229-285, mm.c:288-295. -/
structure St where
  hal : List Nat
  tree : List (Nat × Nat)
  used : Int
  own : List (Nat × Nat)
  pcs : List Pc
deriving DecidableEq, Repr

/-- The state at the beginning, in the model of mm.c:174-220, mm.c:229-285, mm.c:288-295. -/
def init (threads : Nat) : St := ⟨[], [], 0, [], List.replicate threads .idle⟩

/-- The calls and events of the model of mm.c:174-220, mm.c:229-285, mm.c:288-295. -/
inductive Op
  /-- `MALLOC (n)` gives `a` -/
  | malloc (t a n : Nat)
  /-- `mm_insert_ptr` -/
  | insert (t : Nat)
  /-- `aosl_free (a)` of a block asked for with size `n`, up to the end of `mm_remove_ptr`, which finds the node of size `m` -/
  | free (t a n m : Nat)
  /-- `FREE` -/
  | halFree (t : Nat)
  /-- `REALLOC (old, n)` gives `new`; the block was asked for with size `m` -/
  | realloc (t old m new n : Nat)
  /-- `mm_remove_ptr (old)`, which finds the node of size `m` -/
  | remove (t m : Nat)
  /-- `REALLOC (old, 0)` frees the block and gives NULL -/
  | reallocZero (t old m : Nat)
deriving DecidableEq, Repr

/-- `sizeof (struct mm_ptr_node)`. Belongs to the model of mm.c:174-220, mm.c:229-285, mm.c:288-295. -/
abbrev Ov := Nat

/-- `mm_insert_ptr`: the node is put into the tree (mm.c:192-195). -/
def insNode (ov : Ov) (s : St) (a n : Nat) : St := { s with tree := (a, n) :: s.tree, used := s.used + (n + ov : Nat) }

/-- `mm_remove_ptr`: if there is a node, it is taken out (mm.c:248-252). -/
def delNode (ov : Ov) (s : St) (a m : Nat) : St :=
  if (a, m) ∈ s.tree then { s with tree := s.tree.erase (a, m), used := s.used - (m + ov : Nat) } else s

/-- Whether `mm_remove_ptr (a)` can take out the node `(a, m)`: it is in the tree, or there is none for `a`. Belongs to the model of mm.c:174-220, mm.c:229-285, mm.c:288-295. -/
def canFind (s : St) (a m : Nat) : Bool := decide ((a, m) ∈ s.tree) || decide (a ∉ s.tree.map Prod.fst)

/-- One step of a thread; `none` if it cannot take it now. Belongs to the model of mm.c:174-220, mm.c:229-285, mm.c:288-295. -/
def step (ov : Ov) (s : St) : Op → Option St
  | .malloc t a n =>
    if s.pcs[t]? = some .idle ∧ a ≠ 0 ∧ a ∉ s.hal then some { s with hal := a :: s.hal, pcs := s.pcs.set t (.ins a n) } else none
  | .insert t =>
    match s.pcs[t]? with
    | some (.ins a n) => some { insNode ov s a n with own := (a, n) :: s.own, pcs := s.pcs.set t .idle }
    | _ => none
  | .free t a n m =>
    if s.pcs[t]? = some .idle ∧ (a, n) ∈ s.own ∧ canFind s a m = true then
      some { delNode ov s a m with own := s.own.erase (a, n), pcs := s.pcs.set t (.fin a) }
    else none
  | .halFree t =>
    match s.pcs[t]? with
    | some (.fin a) => some { s with hal := s.hal.erase a, pcs := s.pcs.set t .idle }
    | _ => none
  | .realloc t old m new n =>
    if s.pcs[t]? = some .idle ∧ (old, m) ∈ s.own ∧ new ≠ 0 ∧ (new = old ∨ new ∉ s.hal) then
      some { s with hal := new :: s.hal.erase old, own := s.own.erase (old, m), pcs := s.pcs.set t (.rm old m new n) }
    else none
  | .remove t m' =>
    match s.pcs[t]? with
    | some (.rm old _ new n) => if canFind s old m' = true then some { delNode ov s old m' with pcs := s.pcs.set t (.ins new n) } else none
    | _ => none
  | .reallocZero t old m =>
    if s.pcs[t]? = some .idle ∧ (old, m) ∈ s.own then
      some { s with hal := s.hal.erase old, own := s.own.erase (old, m) }
    else none

/-- One event after the other, in the model of mm.c:174-220, mm.c:229-285, mm.c:288-295; no code of its own. -/
def run (ov : Ov) : St → List Op → Option St
  | s, [] => some s
  | s, op :: ops => match step ov s op with
    | none => none
    | some s' => run ov s' ops

/-- What the counter should show: the sizes of the blocks the program has, and one node for each. Belongs to the model of mm.c:174-220, mm.c:229-285, mm.c:288-295. -/
def expected (ov : Ov) (own : List (Nat × Nat)) : Int := (own.map (fun p => ((p.2 + ov : Nat) : Int))).sum

end Verif.Mm
