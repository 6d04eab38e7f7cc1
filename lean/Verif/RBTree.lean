/-
  Model of lib/rbtree.c (red-black tree with parent pointers).

  Representation: a node reached through a pointer is a focus subtree together with the path of
  its ancestors (a zipper).  `rb_parent (node)` is the head of the path, assigning
  `node = parent` moves one frame up, a rotation rewrites the frames involved.  A NULL dereference
  of the C code is the outcome `none`.  Node identity is carried by the element type `α`
  (an element is "the struct the node is embedded in").
-/
namespace Verif.RBTree

/-- AOSL_RB_RED / AOSL_RB_BLACK, lib/rbtree.c:14-15. -/
inductive Color where
  | red
  | black
deriving DecidableEq, Repr

/-- A (sub)tree: `struct aosl_rb_node` with rb_left / rb_right, include/api/aosl_rbtree.h:22-26. -/
inductive Tree (α : Type u) where
  | nil : Tree α
  | node (c : Color) (l : Tree α) (x : α) (r : Tree α) : Tree α
deriving Repr, DecidableEq

/-- Which child pointer of the parent leads to the focus. Belongs to the model of lib/rbtree.c:14-602, include/api/aosl_rbtree.h:22-34. -/
inductive Dir where
  | L
  | R
deriving DecidableEq, Repr

/-- One ancestor: the direction taken at it, its colour, its element and its other subtree. Belongs to the model of lib/rbtree.c:14-602, include/api/aosl_rbtree.h:22-34. -/
structure Frame (α : Type u) where
  dir : Dir
  color : Color
  key : α
  sib : Tree α
deriving Repr, DecidableEq

/-- Belongs to the model of lib/rbtree.c:14-602, include/api/aosl_rbtree.h:22-34. -/
abbrev Path (α : Type u) := List (Frame α)

/-- Re-attach a focus under one ancestor. Belongs to the model of lib/rbtree.c:14-602, include/api/aosl_rbtree.h:22-34. -/
def Frame.fill (f : Frame α) (t : Tree α) : Tree α :=
  match f.dir with
  | .L => .node f.color t f.key f.sib
  | .R => .node f.color f.sib f.key t

/-- The whole tree seen from a focus. Belongs to the model of lib/rbtree.c:14-602, include/api/aosl_rbtree.h:22-34. -/
def plug (t : Tree α) : Path α → Tree α
  | [] => t
  | f :: p => plug (f.fill t) p

/-- `rb_is_red (n)` guarded by `n &&` (lib/rbtree.c:19); NULL counts as black. -/
def Tree.isRed : Tree α → Bool
  | .node .red _ _ _ => true
  | _ => false

/-- rb_set_black (lib/rbtree.c:22). -/
def Tree.blacken : Tree α → Tree α
  | .nil => .nil
  | .node _ l x r => .node .black l x r

/-- rb_set_red (lib/rbtree.c:21). -/
def Tree.redden : Tree α → Tree α
  | .nil => .nil
  | .node _ l x r => .node .red l x r

/-- The loop of `aosl_rb_insert_color`, lib/rbtree.c:86-148, at `node` (the focus, a red node).
    `none` is the dereference of a NULL grandparent. The final `rb_set_black (root->rb_node)` is
    applied on exit; `root->count++` is in `Root.insertNode`. -/
def insertFix : Tree α → Path α → Option (Tree α)
  | node, [] => some node.blacken
  | node, p :: rest =>
    match p.color with
    | .black => some (plug node (p :: rest)).blacken
    | .red =>
      match rest with
      | [] => none
      | g :: rest' =>
        -- parent == gparent->rb_left  <->  g.dir = L ; uncle = g.sib
        if g.sib.isRed then
          insertFix
            (({ g with color := .red, sib := g.sib.blacken } : Frame α).fill
              (({ p with color := .black } : Frame α).fill node)) rest'
        else
          match g.dir, p.dir with
          | .L, .L =>  -- rotate right at gparent
            some (plug (.node .black node p.key (.node .red p.sib g.key g.sib)) rest').blacken
          | .L, .R =>  -- rotate left at parent, then right at gparent
            match node with
            | .nil => none
            | .node _ nl nx nr =>
              some (plug (.node .black (.node .red p.sib p.key nl) nx
                (.node .red nr g.key g.sib)) rest').blacken
          | .R, .R =>
            some (plug (.node .black (.node .red g.sib g.key p.sib) p.key node) rest').blacken
          | .R, .L =>
            match node with
            | .nil => none
            | .node _ nl nx nr =>
              some (plug (.node .black (.node .red g.sib g.key nl) nx
                (.node .red nr p.key p.sib)) rest').blacken

/-- Outcome of one iteration of the `__rb_erase_color` loop body. Belongs to the model of lib/rbtree.c:14-602, include/api/aosl_rbtree.h:22-34. -/
inductive EStep (α : Type u) where
  /-- `node = parent; parent = rb_parent (node)`: loop again. -/
  | cont (node : Tree α) (path : Path α)
  /-- `node = root->rb_node; break`, then `rb_set_black (node)`: the final tree. -/
  | done (t : Tree α)

/-- Second half of the loop body of `__rb_erase_color` (lib/rbtree.c:163-184 for the left case,
    194-216 for the right case): `other` is `p.sib`, known not to be red. -/
def eraseStep2 (node : Tree α) (p : Frame α) (rest : Path α) : Option (EStep α) :=
  match p.sib with
  | .nil => none
  | .node _ ol ox or =>
    if !ol.isRed && !or.isRed then
      some (.cont (({ p with sib := .node .red ol ox or } : Frame α).fill node) rest)
    else
      match p.dir with
      | .L =>
        if !or.isRed then
          -- o_left black, other red, rotate right at other, other = o_left
          match ol with
          | .nil => none
          | .node _ oll olx olr =>
            some (.done (plug (.node p.color (.node .black node p.key oll) olx
              (Tree.node .red olr ox or).blacken) rest).blacken)
        else
          some (.done (plug (.node p.color (.node .black node p.key ol) ox or.blacken) rest).blacken)
      | .R =>
        if !ol.isRed then
          match or with
          | .nil => none
          | .node _ orl orx orr =>
            some (.done (plug (.node p.color (Tree.node .red ol ox orl).blacken orx
              (.node .black orr p.key node)) rest).blacken)
        else
          some (.done (plug (.node p.color ol.blacken ox (.node .black or p.key node)) rest).blacken)

/-- One iteration of the loop of `__rb_erase_color`, lib/rbtree.c:154-218: first the red-sibling
    rotation (157-162 / 188-193), then `eraseStep2`. -/
def eraseStep (node : Tree α) (p : Frame α) (rest : Path α) : Option (EStep α) :=
  match p.sib with
  | .nil => none
  | .node .red ol ox or =>
    match p.dir with
    | .L => eraseStep2 node ⟨.L, .red, p.key, ol⟩ (⟨.L, .black, ox, or⟩ :: rest)
    | .R => eraseStep2 node ⟨.R, .red, p.key, or⟩ (⟨.R, .black, ox, ol⟩ :: rest)
  | .node .black _ _ _ => eraseStep2 node p rest

/-- Termination measure: the loop stops at once on a red focus, otherwise it moves up. Belongs to the model of lib/rbtree.c:14-602, include/api/aosl_rbtree.h:22-34. -/
def emeasure (node : Tree α) (path : Path α) : Nat :=
  if node.isRed then 0 else path.length + 1

theorem eraseStep2_cont {node : Tree α} {p : Frame α} {rest : Path α} {n' p'}
    (h : eraseStep2 node p rest = some (.cont n' p')) :
    p' = rest ∧ n'.isRed = (match p.color with | .red => true | .black => false) := by
  unfold eraseStep2 at h
  split at h
  · simp at h
  · split at h
    · simp at h
      obtain ⟨h1, h2⟩ := h
      subst h1; subst h2
      refine ⟨rfl, ?_⟩
      unfold Frame.fill
      cases hd : p.dir <;> cases hc : p.color <;> simp [Tree.isRed]
    · split at h <;> split at h <;> (try split at h) <;> simp at h

theorem eraseStep_dec {node : Tree α} {p : Frame α} {rest : Path α} {n' p'}
    (hn : node.isRed = false)
    (h : eraseStep node p rest = some (.cont n' p')) :
    emeasure n' p' < emeasure node (p :: rest) := by
  unfold eraseStep at h
  split at h
  · simp at h
  · split at h
    · have := eraseStep2_cont h
      simp [emeasure, this, hn]
    · have := eraseStep2_cont h
      simp [emeasure, this, hn]
  · have := eraseStep2_cont h
    obtain ⟨h1, _⟩ := this
    subst h1
    simp [emeasure, hn]
    split <;> omega

/-- `__rb_erase_color`, lib/rbtree.c:150-221. -/
def eraseFix (node : Tree α) (path : Path α) : Option (Tree α) :=
  if hn : node.isRed then some (plug node.blacken path)
  else
    match path with
    | [] => some node.blacken
    | p :: rest =>
      match hs : eraseStep node p rest with
      | none => none
      | some (.done t) => some t
      | some (.cont n' p') => eraseFix n' p'
termination_by emeasure node path
decreasing_by exact eraseStep_dec (by simpa using hn) hs

/-- `while (n->rb_left) n = n->rb_left` (lib/rbtree.c:236-237, 297-298, 325-326): the leftmost node of
    a non-empty subtree, as colour, element, right child and the path to it. -/
def leftmost (c : Color) : Tree α → α → Tree α → Path α → Color × α × Tree α × Path α
  | .nil, x, r, p => (c, x, r, p)
  | .node lc ll lx lr, x, r, p => leftmost lc ll lx lr (⟨.L, c, x, r⟩ :: p)

/-- `while (n->rb_right) n = n->rb_right` (lib/rbtree.c:309-310, 353-354). -/
def rightmost (c : Color) (l : Tree α) (x : α) : Tree α → Path α → Color × Tree α × α × Path α
  | .nil, p => (c, l, x, p)
  | .node rc rl rx rr, p => rightmost rc rl rx rr (⟨.R, c, x, l⟩ :: p)

/-- `aosl_rb_erase`, lib/rbtree.c:223-285, of the node with the given fields at `path`
    (`root->count--` is in `Root.erase`). -/
def eraseAt (c : Color) (l : Tree α) (_x : α) (r : Tree α) (path : Path α) : Option (Tree α) :=
  match l, r with
  | .nil, child => fix c child path
  | child, .nil => fix c child path
  | l, .node rc rl rx rr =>
    -- the in-order successor takes over the place and colour of the erased node
    let (sc, sx, child, sp) := leftmost rc rl rx rr []
    fix sc child (sp ++ ⟨.R, c, sx, l⟩ :: path)
where
  /-- label `color:` lib/rbtree.c:281-283. -/
  fix (color : Color) (child : Tree α) (path : Path α) : Option (Tree α) :=
    match color with
    | .black => eraseFix child path
    | .red => some (plug child path)

/-- The comparator result for (tree node, sought node): `root->rb_cmp (__rb_node, node, args)`.
    The variadic arguments are fixed per call and part of `cmp`. Belongs to the model of lib/rbtree.c:14-602, include/api/aosl_rbtree.h:22-34. -/
abbrev Cmp (α : Type u) := α → α → Int

/-- The descent of `aosl_vfind_rb_links` / `aosl_find_rb_links`, lib/rbtree.c:389-461: path from the
    empty link found up to the root. -/
def findLinks (cmp : Cmp α) (x : α) : Tree α → Path α → Path α
  | .nil, p => p
  | .node c l y r, p =>
    if cmp y x > 0 then findLinks cmp x l (⟨.L, c, y, r⟩ :: p)
    else findLinks cmp x r (⟨.R, c, y, l⟩ :: p)

/-- A node found by descent: its fields and ancestors. Belongs to the model of lib/rbtree.c:14-602, include/api/aosl_rbtree.h:22-34. -/
structure Pos (α : Type u) where
  color : Color
  left : Tree α
  elem : α
  right : Tree α
  path : Path α
deriving Repr, DecidableEq

/-- `aosl_vfind_rb_node` / `aosl_find_rb_node`, lib/rbtree.c:463-509. -/
def findNode (cmp : Cmp α) (x : α) : Tree α → Path α → Option (Pos α)
  | .nil, _ => none
  | .node c l y r, p =>
    if cmp y x = 0 then some ⟨c, l, y, r, p⟩
    else if cmp y x > 0 then findNode cmp x l (⟨.L, c, y, r⟩ :: p)
    else findNode cmp x r (⟨.R, c, y, l⟩ :: p)

/-- Number of comparator calls made by `aosl_find_rb_node` (same loop, lib/rbtree.c:487-509). -/
def findCost (cmp : Cmp α) (x : α) : Tree α → Nat
  | .nil => 0
  | .node _ l y r =>
    if cmp y x = 0 then 1
    else if cmp y x > 0 then 1 + findCost cmp x l
    else 1 + findCost cmp x r

/-- `struct aosl_rb_root`, include/api/aosl_rbtree.h:30-34; `count` (uintptr_t) as a natural number
    (2^64 nodes do not fit in memory). -/
structure Root (α : Type u) where
  tree : Tree α
  count : Nat
deriving Repr, DecidableEq

/-- `aosl_rb_root_init`, lib/rbtree.c:37-42. -/
def Root.init : Root α := ⟨.nil, 0⟩

/-- `aosl_rb_insert_node` (lib/rbtree.c:511-519) with `rb_insert` (include/kernel/rbtree.h: link the
    node red with NULL children, then `aosl_rb_insert_color`). -/
def Root.insertNode (cmp : Cmp α) (root : Root α) (x : α) : Option (Root α) :=
  (insertFix (.node .red .nil x .nil) (findLinks cmp x root.tree [])).map
    fun t => ⟨t, root.count + 1⟩

/-- `aosl_rb_erase` on the node at a position of this tree, lib/rbtree.c:223-285. -/
def Root.erase (root : Root α) (pos : Pos α) : Option (Root α) :=
  (eraseAt pos.color pos.left pos.elem pos.right pos.path).map fun t => ⟨t, root.count - 1⟩

/-- `aosl_rb_remove`, lib/rbtree.c:521-534. The outer `none` is a NULL dereference. -/
def Root.remove (cmp : Cmp α) (root : Root α) (x : α) : Option (Root α × Option α) :=
  match findNode cmp x root.tree [] with
  | none => some (root, none)
  | some pos => (root.erase pos).map fun r => (r, some pos.elem)

/-- `aosl_rb_first`, lib/rbtree.c:290-300. -/
def first : Tree α → Option (Pos α)
  | .nil => none
  | .node c l x r =>
    let (c', x', r', p) := leftmost c l x r []
    some ⟨c', .nil, x', r', p⟩

/-- `aosl_rb_last`, lib/rbtree.c:302-312. -/
def last : Tree α → Option (Pos α)
  | .nil => none
  | .node c l x r =>
    let (c', l', x', p) := rightmost c l x r []
    some ⟨c', l', x', .nil, p⟩

/-- The climb `while ((parent = rb_parent (node)) && node == parent->rb_right) node = parent;`
    lib/rbtree.c:336-339; `t` is the subtree climbed out of. -/
def climbNext (t : Tree α) : Path α → Option (Pos α)
  | [] => none
  | f :: p =>
    match f.dir with
    | .R => climbNext (f.fill t) p
    | .L => some ⟨f.color, t, f.key, f.sib, p⟩

/-- `aosl_rb_next`, lib/rbtree.c:314-340. -/
def next (q : Pos α) : Option (Pos α) :=
  match q.right with
  | .node c l x r =>
    let (c', x', r', p) := leftmost c l x r []
    some ⟨c', .nil, x', r', p ++ ⟨.R, q.color, q.elem, q.left⟩ :: q.path⟩
  | .nil => climbNext (.node q.color q.left q.elem .nil) q.path

/-- The climb of `aosl_rb_prev`, lib/rbtree.c:360-361. -/
def climbPrev (t : Tree α) : Path α → Option (Pos α)
  | [] => none
  | f :: p =>
    match f.dir with
    | .L => climbPrev (f.fill t) p
    | .R => some ⟨f.color, f.sib, f.key, t, p⟩

/-- `aosl_rb_prev`, lib/rbtree.c:342-364. -/
def prev (q : Pos α) : Option (Pos α) :=
  match q.left with
  | .node c l x r =>
    let (c', l', x', p) := rightmost c l x r []
    some ⟨c', l', x', .nil, p ++ ⟨.L, q.color, q.elem, q.right⟩ :: q.path⟩
  | .nil => climbPrev (.node q.color .nil q.elem q.right) q.path

/-- `aosl_rb_replace_node`, lib/rbtree.c:366-386: the new node takes the victim's place and colour. -/
def replaceNode (q : Pos α) (new : α) : Tree α :=
  plug (.node q.color q.left new q.right) q.path

/-- A stateful user callback `func (node, arg)`: new callback state and "returned non-zero". Belongs to the model of lib/rbtree.c:14-602, include/api/aosl_rbtree.h:22-34. -/
abbrev Walk (α : Type u) (σ : Type v) := σ → α → σ × Bool

/-- `__rb_traverse_dlr`, lib/rbtree.c:536-557 (`done_p` is never NULL from the API). -/
def traverseDlr (f : Walk α σ) : Tree α → σ × Bool → σ × Bool
  | .nil, s => s
  | .node _ l x r, s =>
    let s := if s.2 then s else f s.1 x
    let s := if s.2 then s else traverseDlr f l s
    if s.2 then s else traverseDlr f r s

/-- `__rb_traverse_ldr`, lib/rbtree.c:559-580. -/
def traverseLdr (f : Walk α σ) : Tree α → σ × Bool → σ × Bool
  | .nil, s => s
  | .node _ l x r, s =>
    let s := if s.2 then s else traverseLdr f l s
    let s := if s.2 then s else f s.1 x
    if s.2 then s else traverseLdr f r s

/-- `__rb_traverse_lrd`, lib/rbtree.c:582-602. -/
def traverseLrd (f : Walk α σ) : Tree α → σ × Bool → σ × Bool
  | .nil, s => s
  | .node _ l x r, s =>
    let s := if s.2 then s else traverseLrd f l s
    let s := if s.2 then s else traverseLrd f r s
    if s.2 then s else f s.1 x

end Verif.RBTree
