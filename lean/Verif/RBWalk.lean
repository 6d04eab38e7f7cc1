import Verif.RBTree
/-
  Model of the three tree traversals of lib/rbtree.c (536-608) with a callback that changes the
  tree: `aosl_rb_traverse_lrd` is used by `refobj_lock_threads_cleanup` (kernel/refobj.c:244-255)
  with the callback `__check_erase_node` (229-242), which erases the node it is given from the tree
  that is being walked and frees it.

  `Verif.RBTree` has the traversals over a tree that does not change; here the recursion holds a
  node pointer (an element, node identity being carried by the element) and every read through that
  pointer looks the node up in the current tree.  A node that is no longer in the tree has been
  freed by the callback, so such a read is the outcome `stale`.
-/
namespace Verif.RBWalk

open Verif.RBTree

/-- Follow a node pointer: the fields and the ancestors of node `x` in the current tree.  This is
    not a search of the C code, it is the dereference `node->...` (lib/rbtree.c:538-602): `none`
    is a pointer to a node that has left the tree. -/
def locate [DecidableEq α] (x : α) : Tree α → Path α → Option (Pos α)
  | .nil, _ => none
  | .node c l y r, p =>
    if y = x then some ⟨c, l, y, r, p⟩
    else match locate x l (⟨.L, c, y, r⟩ :: p) with
      | some q => some q
      | none => locate x r (⟨.R, c, y, l⟩ :: p)

/-- The pointer value of a child link: NULL or the node it leads to. Belongs to the model of kernel/refobj.c:244-255. -/
def ptr : Tree α → Option α
  | .nil => none
  | .node _ _ x _ => some x

/-- A callback `func (node, arg)`: new state of `arg`, whether it erased and freed the node it was
    given, and whether it returned non-zero (`__check_erase_node`, kernel/refobj.c:229-242, always
    returns 0). -/
abbrev Callback (α : Type u) (σ : Type v) := σ → α → σ × Bool × Bool

/-- The tree, the state of the callback, `*done_p`, and, for the statements only, the nodes given to
    the callback so far. Belongs to the model of kernel/refobj.c:244-255. -/
structure W (α : Type u) (σ : Type v) where
  tree : Tree α
  arg : σ
  done : Bool
  visited : List α
deriving DecidableEq, Repr

/-- Result of a traversal. Belongs to the model of kernel/refobj.c:244-255. -/
inductive Res (α : Type u) (σ : Type v) where
  | ok (w : W α σ)
  /-- a read through a pointer to an erased (freed) node -/
  | stale
  /-- NULL dereference inside `aosl_rb_erase` -/
  | nullDeref
  /-- the recursion is deeper than the given bound -/
  | deep
deriving DecidableEq, Repr

/-- Sequencing of the three parts of a traversal function. Belongs to the model of kernel/refobj.c:244-255. -/
def Res.bind (r : Res α σ) (k : W α σ → Res α σ) : Res α σ :=
  match r with
  | .ok w => k w
  | e => e

/-- The test `done_p == NULL || !*done_p` in front of each part (`done_p` is never NULL from the
    API), lib/rbtree.c:539, 542, 548 and the same in the two other orders. -/
def Res.part (r : Res α σ) (k : W α σ → Res α σ) : Res α σ :=
  r.bind fun w => if w.done then .ok w else k w

/-- `int done = func (node, arg); *done_p = done`, lib/rbtree.c:540-544, 566-570, 592-596; the
    callback erases the node with `aosl_rb_erase` (kernel/refobj.c:237-238). -/
def call [DecidableEq α] (cb : Callback α σ) (x : α) (w : W α σ) : Res α σ :=
  match locate x w.tree [] with
  | none => .stale
  | some q =>
    let o := cb w.arg x
    if o.2.1 then
      match eraseAt q.color q.left q.elem q.right q.path with
      | none => .nullDeref
      | some t => .ok ⟨t, o.1, o.2.2, w.visited ++ [x]⟩
    else .ok ⟨w.tree, o.1, o.2.2, w.visited ++ [x]⟩

/-- Read one child link of the node and recurse (`rec` is the recursive call). Belongs to the model of kernel/refobj.c:244-255. -/
def child [DecidableEq α] (sel : Pos α → Tree α) (rec : W α σ → Option α → Res α σ) (x : α)
    (w : W α σ) : Res α σ :=
  match locate x w.tree [] with
  | none => .stale
  | some q => rec w (ptr (sel q))

/-- `__rb_traverse_lrd`, lib/rbtree.c:582-602 (left subtree, right subtree, node). -/
def lrd [DecidableEq α] (cb : Callback α σ) : Nat → W α σ → Option α → Res α σ
  | _, w, none => .ok w
  | 0, _, some _ => .deep
  | f + 1, w, some x =>
    (((Res.ok w).part (child Pos.left (lrd cb f) x)).part (child Pos.right (lrd cb f) x)).part
      (call cb x)

/-- `__rb_traverse_ldr`, lib/rbtree.c:559-580 (left subtree, node, right subtree). -/
def ldr [DecidableEq α] (cb : Callback α σ) : Nat → W α σ → Option α → Res α σ
  | _, w, none => .ok w
  | 0, _, some _ => .deep
  | f + 1, w, some x =>
    (((Res.ok w).part (child Pos.left (ldr cb f) x)).part (call cb x)).part
      (child Pos.right (ldr cb f) x)

/-- `__rb_traverse_dlr`, lib/rbtree.c:536-557 (node, left subtree, right subtree). -/
def dlr [DecidableEq α] (cb : Callback α σ) : Nat → W α σ → Option α → Res α σ
  | _, w, none => .ok w
  | 0, _, some _ => .deep
  | f + 1, w, some x =>
    (((Res.ok w).part (call cb x)).part (child Pos.left (dlr cb f) x)).part
      (child Pos.right (dlr cb f) x)

/-- `aosl_rb_traverse_lrd`, lib/rbtree.c:598-603. -/
def traverseLrd [DecidableEq α] (cb : Callback α σ) (depth : Nat) (t : Tree α) (arg : σ) : Res α σ :=
  lrd cb depth ⟨t, arg, false, []⟩ (ptr t)

/-- `aosl_rb_traverse_ldr`, lib/rbtree.c:576-580. -/
def traverseLdr [DecidableEq α] (cb : Callback α σ) (depth : Nat) (t : Tree α) (arg : σ) : Res α σ :=
  ldr cb depth ⟨t, arg, false, []⟩ (ptr t)

/-- `aosl_rb_traverse_dlr`, lib/rbtree.c:553-557. -/
def traverseDlr [DecidableEq α] (cb : Callback α σ) (depth : Nat) (t : Tree α) (arg : σ) : Res α σ :=
  dlr cb depth ⟨t, arg, false, []⟩ (ptr t)

/-- The fields of a thread node the cleanup looks at (`struct robj_thread_node`,
    kernel/refobj.c:195-202): `tid` identifies the node, `ts` is `active_ts` (milliseconds). -/
structure TNode where
  tid : Nat
  usage : Nat
  getCount : Nat
  lockCount : Nat
  ts : Nat
deriving DecidableEq, Repr

/-- THREAD_CLEANUP_THRESHOLD, kernel/refobj.c:214. -/
def cleanupThreshold : Nat := 64

/-- THREAD_MAX_IDLE_TIME, kernel/refobj.c:213. -/
def maxIdle : Nat := 60000

/-- The condition of `__check_erase_node`, kernel/refobj.c:234-236.  The clock does not go back, so
    the difference is taken over the natural numbers; the truncation to `int` is not modelled here
    (idle times below 2^31 ms). -/
def idle (now : Nat) (n : TNode) : Bool :=
  n.usage == 1 && n.getCount == 0 && n.lockCount == 0 && decide (now - n.ts ≥ maxIdle)

/-- `__check_erase_node`, kernel/refobj.c:229-242: with `usage` 1 the `__thread_node_put` after the
    erase frees the node. -/
def checkErase (now : Nat) : Callback TNode Unit := fun _ n => ((), idle now n, false)

/-- `refobj_lock_threads_cleanup`, kernel/refobj.c:244-255 (under the write lock of the tree), with
    one reading of the clock for the whole walk. -/
def cleanup (now : Nat) (depth : Nat) (r : Root TNode) : Res TNode Unit :=
  if r.count > cleanupThreshold then traverseLrd (checkErase now) depth r.tree ()
  else .ok ⟨r.tree, (), false, []⟩

end Verif.RBWalk
