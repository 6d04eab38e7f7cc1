import Verif.RBTreeLemmas
/-!
  Properties C01–C07: the red-black tree of lib/rbtree.c.
-/
namespace Verif.RBTree
variable {α : Type u} {σ : Type v}

/-! ## Specification (independent of the algorithm) -/
namespace Spec

/-- A call on a tree, as a user issues it. `erase` takes a pointer to a node of the tree. -/
inductive Op (α : Type u) where
  | insert (x : α)
  | remove (key : α)
  | erase (node : Pos α)

/-- Sorted by the comparator. -/
def Sorted (cmp : Cmp α) (l : List α) : Prop := l.Pairwise (fun a b => cmp a b ≤ 0)

/-- Stable insertion into a sorted sequence: behind everything that is not greater. -/
def insert (cmp : Cmp α) (x : α) (l : List α) : List α :=
  l.takeWhile (fun y => cmp y x ≤ 0) ++ x :: l.dropWhile (fun y => cmp y x ≤ 0)

/-- What a call may do to the sequence of live nodes, and what it returns. -/
def Step (cmp : Cmp α) (l : List α) (op : Op α) (l' : List α) (ret : Option α) : Prop :=
  match op with
  | .insert x => l' = insert cmp x l ∧ ret = none
  | .remove k =>
    ((∀ y ∈ l, cmp y k ≠ 0) ∧ l' = l ∧ ret = none) ∨
    (∃ a y b, l = a ++ y :: b ∧ cmp y k = 0 ∧ l' = a ++ b ∧ ret = some y)
  | .erase q => ∃ a b, l = a ++ q.elem :: b ∧ a.length = q.pre.length ∧ l' = a ++ b ∧ ret = none

/-- Root-to-NULL colour sequences. -/
def paths : Tree α → List (List Color)
  | .nil => [[]]
  | .node c l _ r => (paths l ++ paths r).map (c :: ·)

/-- The textbook red-black rules. -/
structure RedBlack (t : Tree α) : Prop where
  root : ∀ p ∈ paths t, p.head? ≠ some .red
  noRedRed : ∀ p ∈ paths t, ¬ [Color.red, Color.red] <:+: p
  sameBlack : ∀ p ∈ paths t, ∀ q ∈ paths t, p.count .black = q.count .black

/-- Length of the longest root-to-NULL path. -/
def height : Tree α → Nat
  | .nil => 0
  | .node _ l _ r => 1 + max (height l) (height r)

/-- Visit nodes one after the other by following a step function until NULL. -/
inductive Visits (step : Pos α → Option (Pos α)) : Option (Pos α) → List α → Prop where
  | stop : Visits step none []
  | go {q l} : Visits step (step q) l → Visits step (some q) (q.elem :: l)

/-- Run a callback over a sequence until it first returns non-zero. -/
def runUntil (f : Walk α σ) : σ × Bool → List α → σ × Bool
  | s, [] => s
  | s, x :: l => if s.2 then s else runUntil f (f s.1 x) l

/-- Pre-order and post-order sequences. -/
def preorder : Tree α → List α
  | .nil => []
  | .node _ l x r => x :: (preorder l ++ preorder r)
def postorder : Tree α → List α
  | .nil => []
  | .node _ l x r => postorder l ++ postorder r ++ [x]

end Spec

open Spec

/-! ## Running the model -/

/-- Execute a call on the model; the outer `none` is a NULL dereference. -/
def exec (cmp : Cmp α) (r : Root α) : Op α → Option (Root α × Option α)
  | .insert x => (r.insertNode cmp x).map fun r' => (r', none)
  | .remove k => r.remove cmp k
  | .erase q => (r.erase q).map fun r' => (r', none)

/-- A call is legal if the node pointer passed to erase points into this tree. -/
def Legal (r : Root α) : Op α → Prop
  | .erase q => q.whole = r.tree
  | _ => True

/-- `Run cmp r ops`: the tree after the history `ops` (latest first) of legal calls is `r`. -/
inductive Run (cmp : Cmp α) : Root α → List (Op α × Option α) → Prop where
  | init : Run cmp Root.init []
  | step {r r' h op ret} : Run cmp r h → Legal r op → exec cmp r op = some (r', ret) →
      Run cmp r' ((op, ret) :: h)

/-- The same history on plain sequences. -/
inductive SpecRun (cmp : Cmp α) : List α → List (Op α × Option α) → Prop where
  | init : SpecRun cmp [] []
  | step {l l' h op ret} : SpecRun cmp l h → Step cmp l op l' ret → SpecRun cmp l' ((op, ret) :: h)

/-! ## Proofs -/

theorem specInsert_eq {cmp : Cmp α} {x : α} {a b : List α} (ha : ∀ y ∈ a, cmp y x ≤ 0)
    (hb : ∀ y ∈ b, cmp y x > 0) : Spec.insert cmp x (a ++ b) = a ++ x :: b := by
  have h1 : (a ++ b).takeWhile (fun y => decide (cmp y x ≤ 0)) = a := by
    induction a with
    | nil =>
      cases b with
      | nil => rfl
      | cons y b =>
        have := hb y (by simp)
        rw [List.nil_append, List.takeWhile_cons_of_neg]
        simp; omega
    | cons z a ih =>
      have := ha z (by simp)
      simp [this, ih (fun y hy => ha y (by simp [hy]))]
  have h2 : (a ++ b).dropWhile (fun y => decide (cmp y x ≤ 0)) = b := by
    clear h1
    induction a with
    | nil =>
      cases b with
      | nil => rfl
      | cons y b =>
        have := hb y (by simp)
        rw [List.nil_append, List.dropWhile_cons_of_neg]
        simp; omega
    | cons z a ih =>
      have := ha z (by simp)
      simp [this, ih (fun y hy => ha y (by simp [hy]))]
  unfold Spec.insert
  rw [h1, h2]

/-- The invariant of a root. -/
structure Good (cmp : Cmp α) (r : Root α) : Prop where
  sorted : Sorted cmp r.tree.inorder
  rb : IsRB r.tree
  count : r.count = r.tree.inorder.length

theorem good_init (cmp : Cmp α) : Good cmp (Root.init : Root α) :=
  ⟨by simp [Sorted, Root.init, Tree.inorder], ⟨rfl, trivial, 0, rfl⟩, rfl⟩

theorem exec_insert {cmp : Cmp α} (hl : Lawful cmp) {r : Root α} (hg : Good cmp r) (x : α) :
    ∃ r', r.insertNode cmp x = some r' ∧ r'.tree.inorder = Spec.insert cmp x r.tree.inorder ∧
      Good cmp r' := by
  obtain ⟨hs, hrb, hc⟩ := hg
  have hplug := findLinks_spec cmp x r.tree []
  obtain ⟨hr, hn, m, hb⟩ := hrb
  have hplug' : plug .nil (findLinks cmp x r.tree []) = r.tree := hplug
  rw [← hplug'] at hr hn hb
  obtain ⟨n, hb1, hb2⟩ := bal_unplug hb
  obtain ⟨_, hn2, _⟩ := norr_unplug hn hr
  have hn0 : n = 0 := hb1
  subst hn0
  obtain ⟨t, ht, hrb'⟩ := insertFix_rb (.node .red .nil x .nil) (findLinks cmp x r.tree []) 0 rfl
    (by simp [NoRR]) (by simp [Bal]) hb2 hn2
  have hio := insertFix_inorder _ _ _ ht
  obtain ⟨a, b, h1, h2, h3, h4, h5⟩ := findLinks_before cmp hl x r.tree [] hs
  have hio' : t.inorder = a ++ x :: b := by
    rw [hio, h1, h2]; simp [before, after, Tree.inorder]
  have hspec : t.inorder = Spec.insert cmp x r.tree.inorder := by
    rw [hio', h3, specInsert_eq h4 h5]
  refine ⟨⟨t, r.count + 1⟩, by simp [Root.insertNode, ht], hspec, ?_, hrb', ?_⟩
  · simp only [Sorted]
    rw [hio']
    rw [Sorted, h3] at hs
    rw [List.pairwise_append] at hs ⊢
    refine ⟨hs.1, ?_, ?_⟩
    · rw [List.pairwise_cons]
      refine ⟨?_, hs.2.1⟩
      intro y hy
      have := (hl.flip y x).1 (h5 y hy)
      omega
    · intro y hy z hz
      simp at hz
      rcases hz with hz | hz
      · subst hz; exact h4 y hy
      · exact hs.2.2 y hy z hz
  · simp [hio', hc, h3]; omega

theorem exec_erase {cmp : Cmp α} {r : Root α} (hg : Good cmp r) (q : Pos α)
    (hq : q.whole = r.tree) :
    ∃ r', r.erase q = some r' ∧ r'.tree.inorder = q.pre ++ q.post ∧
      r.tree.inorder = q.pre ++ q.elem :: q.post ∧ Good cmp r' := by
  obtain ⟨hs, hrb, hc⟩ := hg
  rw [← hq] at hrb
  obtain ⟨t, ht, hrb'⟩ := eraseAt_rb q.color q.left q.elem q.right q.path hrb
  have hio := eraseAt_inorder _ _ _ _ _ _ ht
  have hw : r.tree.inorder = q.pre ++ q.elem :: q.post := by rw [← hq]; exact q.inorder_whole
  have hio' : t.inorder = q.pre ++ q.post := by
    rw [hio]; simp [Pos.pre, Pos.post]
  refine ⟨⟨t, r.count - 1⟩, by simp [Root.erase, ht], hio', hw, ?_, hrb', ?_⟩
  · simp only [Sorted]
    rw [hio']
    rw [Sorted, hw] at hs
    rw [List.pairwise_append, List.pairwise_cons] at hs
    rw [List.pairwise_append]
    exact ⟨hs.1, hs.2.1.2, fun a ha b hb => hs.2.2 a ha b (by simp [hb])⟩
  · rw [hw] at hc
    simp [hio', hc]

theorem exec_good {cmp : Cmp α} (hl : Lawful cmp) {r : Root α} (hg : Good cmp r) (op : Op α)
    (hop : Legal r op) :
    ∃ r' ret, exec cmp r op = some (r', ret) ∧ Step cmp r.tree.inorder op r'.tree.inorder ret ∧
      Good cmp r' := by
  cases op with
  | insert x =>
    obtain ⟨r', h1, h2, h3⟩ := exec_insert hl hg x
    exact ⟨r', none, by simp [exec, h1], ⟨h2, rfl⟩, h3⟩
  | remove k =>
    cases hf : findNode cmp k r.tree [] with
    | none =>
      refine ⟨r, none, by simp [exec, Root.remove, hf], Or.inl ⟨?_, rfl, rfl⟩, hg⟩
      exact findNode_none cmp hl k r.tree [] hg.sorted hf
    | some q =>
      obtain ⟨hq, hk⟩ := findNode_some cmp k r.tree [] q hf
      obtain ⟨r', h1, h2, h3, h4⟩ := exec_erase hg q hq
      exact ⟨r', some q.elem, by simp [exec, Root.remove, hf, h1],
        Or.inr ⟨_, _, _, h3, hk, h2, rfl⟩, h4⟩
  | erase q =>
    obtain ⟨r', h1, h2, h3, h4⟩ := exec_erase hg q hop
    exact ⟨r', none, by simp [exec, h1], ⟨_, _, h3, rfl, h2, rfl⟩, h4⟩

theorem run_good {cmp : Cmp α} (hl : Lawful cmp) {r : Root α} {h} (hr : Run cmp r h) :
    Good cmp r ∧ SpecRun cmp r.tree.inorder h := by
  induction hr with
  | init => exact ⟨good_init cmp, .init⟩
  | step _ hlegal hex ih =>
    obtain ⟨r'', ret', h1, h2, h3⟩ := exec_good hl ih.1 _ hlegal
    rw [hex] at h1
    simp at h1
    obtain ⟨rfl, rfl⟩ := h1
    exact ⟨h3, .step ih.2 h2⟩

/-! ## C01 -/

/-- C01. After any history of legal calls the in-order contents are sorted and are what the history
    leaves on plain sequences (stable insertion, removal of one node); and any legal next call
    succeeds (dereferences no NULL pointer). -/
theorem C01_contents {cmp : Cmp α} (hl : Lawful cmp) {r : Root α} {h} (hr : Run cmp r h) :
    Sorted cmp r.tree.inorder ∧ SpecRun cmp r.tree.inorder h ∧
    ∀ op, Legal r op → ∃ r' ret, exec cmp r op = some (r', ret) ∧
      Step cmp r.tree.inorder op r'.tree.inorder ret := by
  obtain ⟨hg, hs⟩ := run_good hl hr
  refine ⟨hg.sorted, hs, fun op hop => ?_⟩
  obtain ⟨r', ret, h1, h2, _⟩ := exec_good hl hg op hop
  exact ⟨r', ret, h1, h2⟩

/-! ## C02 -/

theorem bal_paths {t : Tree α} {n : Nat} (h : Bal t n) : ∀ p ∈ paths t, p.count .black = n := by
  induction t generalizing n with
  | nil => intro p hp; simp [paths] at hp; subst hp; simp [Bal] at h; simp [h]
  | node c l x r ihl ihr =>
    intro p hp
    simp [paths] at hp
    cases c
    · rcases hp with ⟨q, hq, rfl⟩ | ⟨q, hq, rfl⟩
      · simpa using ihl h.1 q hq
      · simpa using ihr h.2 q hq
    · obtain ⟨m, rfl, h1, h2⟩ := h
      rcases hp with ⟨q, hq, rfl⟩ | ⟨q, hq, rfl⟩
      · simpa using ihl h1 q hq
      · simpa using ihr h2 q hq

theorem paths_head {t : Tree α} : ∀ p ∈ paths t, t.isRed = false → p.head? ≠ some .red := by
  intro p hp hr
  cases t with
  | nil => simp [paths] at hp; subst hp; simp
  | node c l x r =>
    simp [paths] at hp
    cases c
    · simp at hr
    · rcases hp with ⟨q, _, rfl⟩ | ⟨q, _, rfl⟩ <;> simp

theorem infix_cons_two {a b c : Color} {q : List Color} (h : [a, b] <:+: c :: q) :
    (a = c ∧ q.head? = some b) ∨ [a, b] <:+: q := by
  rw [List.infix_cons_iff] at h
  rcases h with h | h
  · left
    obtain ⟨s, hs⟩ := h
    simp at hs
    obtain ⟨rfl, rfl⟩ := hs
    simp
  · exact Or.inr h

theorem norr_paths {t : Tree α} (h : NoRR t) : ∀ p ∈ paths t, ¬ [Color.red, Color.red] <:+: p := by
  induction t with
  | nil => intro p hp; simp [paths] at hp; subst hp; simp
  | node c l x r ihl ihr =>
    intro p hp hin
    simp [paths] at hp
    rcases hp with ⟨q, hq, rfl⟩ | ⟨q, hq, rfl⟩
    · rcases infix_cons_two hin with ⟨hc, hh⟩ | h'
      · exact paths_head q hq (h.1 hc.symm).1 hh
      · exact ihl h.2.1 q hq h'
    · rcases infix_cons_two hin with ⟨hc, hh⟩ | h'
      · exact paths_head q hq (h.1 hc.symm).2 hh
      · exact ihr h.2.2 q hq h'

theorem isRB_redBlack {t : Tree α} (h : IsRB t) : RedBlack t := by
  obtain ⟨h1, h2, n, h3⟩ := h
  refine ⟨fun p hp => paths_head p hp h1, norr_paths h2, fun p hp q hq => ?_⟩
  rw [bal_paths h3 p hp, bal_paths h3 q hq]

theorem bal_size {t : Tree α} {n : Nat} (h : Bal t n) : 2 ^ n ≤ t.inorder.length + 1 := by
  induction t generalizing n with
  | nil => simp [Bal] at h; simp [h]
  | node c l x r ihl ihr =>
    cases c
    · have := ihl h.1; simp [Tree.inorder]; omega
    · obtain ⟨m, rfl, h1, h2⟩ := h
      have := ihl h1
      have := ihr h2
      simp [Tree.inorder, Nat.pow_succ]; omega

theorem bal_height {t : Tree α} {n : Nat} (h : Bal t n) (hn : NoRR t) :
    height t ≤ 2 * n + (if t.isRed then 1 else 0) := by
  induction t generalizing n with
  | nil => simp [height]
  | node c l x r ihl ihr =>
    cases c
    · have h1 := ihl h.1 hn.2.1
      have h2 := ihr h.2 hn.2.2
      obtain ⟨h3, h4⟩ := hn.1 rfl
      simp [h3] at h1
      simp [h4] at h2
      simp [height]; omega
    · obtain ⟨m, rfl, hb1, hb2⟩ := h
      have h1 := ihl hb1 hn.2.1
      have h2 := ihr hb2 hn.2.2
      have : (if l.isRed then 1 else 0) ≤ 1 := by split <;> omega
      have : (if r.isRed then 1 else 0) ≤ 1 := by split <;> omega
      simp [height]; omega

theorem findCost_le (cmp : Cmp α) (x : α) (t : Tree α) : findCost cmp x t ≤ height t := by
  induction t with
  | nil => simp [findCost, height]
  | node c l y r ihl ihr =>
    simp only [findCost, height]
    split
    · omega
    · split <;> omega

/-- The nodes an ordinary search for `x` compares with, from the root on. -/
inductive Compares (cmp : Cmp α) (x : α) : Tree α → List α → Prop where
  | off : Compares cmp x .nil []
  | found {c l y r} : cmp y x = 0 → Compares cmp x (.node c l y r) [y]
  | left {c l y r p} : cmp y x > 0 → Compares cmp x l p → Compares cmp x (.node c l y r) (y :: p)
  | right {c l y r p} : cmp y x < 0 → Compares cmp x r p → Compares cmp x (.node c l y r) (y :: p)

theorem findCost_visits (cmp : Cmp α) (x : α) (t : Tree α) : ∃ p, Compares cmp x t p ∧ findCost cmp x t = p.length := by
  induction t with
  | nil => exact ⟨[], .off, rfl⟩
  | node c l y r ihl ihr =>
    by_cases h0 : cmp y x = 0
    · exact ⟨[y], .found h0, by simp [findCost, h0]⟩
    · by_cases h1 : cmp y x > 0
      · obtain ⟨p, hp, hc⟩ := ihl
        exact ⟨y :: p, .left h1 hp, by simp [findCost, h0, h1, hc]; omega⟩
      · obtain ⟨p, hp, hc⟩ := ihr
        exact ⟨y :: p, .right (by omega) hp, by simp [findCost, h0, h1, hc]; omega⟩

/-- C02. After any history of legal calls the tree obeys the red-black rules, its height is at most
    2·log2(n+1) for n nodes, and a lookup makes at most that many comparisons. -/
theorem C02_balanced {cmp : Cmp α} (hl : Lawful cmp) {r : Root α} {h} (hr : Run cmp r h) :
    RedBlack r.tree ∧ height r.tree ≤ 2 * Nat.log2 (r.tree.inorder.length + 1) ∧
    ∀ x, findCost cmp x r.tree ≤ 2 * Nat.log2 (r.tree.inorder.length + 1) ∧
      ∃ p, Compares cmp x r.tree p ∧ findCost cmp x r.tree = p.length := by
  obtain ⟨hg, _⟩ := run_good hl hr
  have hrb := hg.rb
  obtain ⟨n, hb⟩ := hrb.balanced
  have h1 := bal_height hb hrb.no_red_red
  have h2 := bal_size hb
  have h3 : n ≤ Nat.log2 (r.tree.inorder.length + 1) := by
    rw [Nat.le_log2 (by omega)]; exact h2
  have h4 : height r.tree ≤ 2 * Nat.log2 (r.tree.inorder.length + 1) := by
    simp [hrb.root_black] at h1; omega
  exact ⟨isRB_redBlack hrb, h4, fun x => ⟨Nat.le_trans (findCost_le cmp x r.tree) h4, findCost_visits cmp x r.tree⟩⟩

/-! ## C03 -/

/-- C03. The counter in the root equals the number of nodes, after any history. -/
theorem C03_count {cmp : Cmp α} (hl : Lawful cmp) {r : Root α} {h} (hr : Run cmp r h) :
    r.count = r.tree.inorder.length := (run_good hl hr).1.count

/-! ## C04 -/

/-- C04. Lookup returns a node of this tree comparing equal to the key, and returns NULL exactly when
    no node of the tree compares equal. -/
theorem C04_lookup {cmp : Cmp α} (hl : Lawful cmp) {r : Root α} {h} (hr : Run cmp r h) (k : α) :
    (∀ q, findNode cmp k r.tree [] = some q → q.whole = r.tree ∧ q.elem ∈ r.tree.inorder ∧ cmp q.elem k = 0) ∧
    (findNode cmp k r.tree [] = none ↔ ∀ y ∈ r.tree.inorder, cmp y k ≠ 0) := by
  have hg := (run_good hl hr).1
  have h1 : ∀ q, findNode cmp k r.tree [] = some q →
      q.whole = r.tree ∧ q.elem ∈ r.tree.inorder ∧ cmp q.elem k = 0 := by
    intro q hq
    obtain ⟨h1, h2⟩ := findNode_some cmp k r.tree [] q hq
    have h1' : q.whole = r.tree := h1
    refine ⟨h1', ?_, h2⟩
    rw [← h1', q.inorder_whole]; simp
  refine ⟨h1, findNode_none cmp hl k r.tree [] hg.sorted, fun hall => ?_⟩
  cases hf : findNode cmp k r.tree [] with
  | none => rfl
  | some q => exact absurd (h1 q hf).2.2 (hall _ (h1 q hf).2.1)

/-! ## C05 -/

/-- C05. Removing an absent key returns NULL and leaves the tree as it is; removing a present key
    returns a node with that key, and exactly that node disappears. -/
theorem C05_remove {cmp : Cmp α} (hl : Lawful cmp) {r : Root α} {h} (hr : Run cmp r h) (k : α) :
    ((∀ y ∈ r.tree.inorder, cmp y k ≠ 0) → r.remove cmp k = some (r, none)) ∧
    ((∃ y ∈ r.tree.inorder, cmp y k = 0) → ∃ r' y a b, r.remove cmp k = some (r', some y) ∧
      cmp y k = 0 ∧ r.tree.inorder = a ++ y :: b ∧ r'.tree.inorder = a ++ b ∧ r'.count + 1 = r.count) := by
  have hg := (run_good hl hr).1
  have h4 := C04_lookup hl hr k
  constructor
  · intro hall
    simp [Root.remove, h4.2.2 hall]
  · rintro ⟨y, hy, hyk⟩
    cases hf : findNode cmp k r.tree [] with
    | none => exact absurd hyk (h4.2.1 hf y hy)
    | some q =>
      obtain ⟨hq, _, hk⟩ := h4.1 q hf
      obtain ⟨r', e1, e2, e3, e4⟩ := exec_erase hg q hq
      refine ⟨r', q.elem, q.pre, q.post, by simp [Root.remove, hf, e1], hk, e3, e2, ?_⟩
      rw [e4.count, hg.count, e2, e3]
      simp; omega

/-- C05 (erase by pointer). Erasing the node behind a pointer removes exactly that node; replacing it
    in place changes exactly that node. -/
theorem C05_erase_replace {cmp : Cmp α} (hl : Lawful cmp) {r : Root α} {h} (hr : Run cmp r h)
    (q : Pos α) (hq : q.whole = r.tree) (new : α) :
    ∃ a b, r.tree.inorder = a ++ q.elem :: b ∧
      (∃ r', r.erase q = some r' ∧ r'.tree.inorder = a ++ b) ∧
      (replaceNode q new).inorder = a ++ new :: b ∧ RedBlack (replaceNode q new) := by
  have hg := (run_good hl hr).1
  obtain ⟨r', e1, e2, e3, _⟩ := exec_erase hg q hq
  refine ⟨q.pre, q.post, e3, ⟨r', e1, e2⟩, ?_, ?_⟩
  · simp [replaceNode, inorder_plug, Tree.inorder, Pos.pre, Pos.post]
  · apply isRB_redBlack
    apply isRB_swap (x := q.elem)
    have := hg.rb
    rw [← hq] at this
    exact this

/-! ## C06 -/

theorem visits_next (q : Pos α) : ∀ n, q.post.length = n → Visits next (some q) (q.elem :: q.post) := by
  intro n
  induction n generalizing q with
  | zero =>
    intro hn
    have hp : q.post = [] := List.eq_nil_of_length_eq_zero hn
    rw [hp]
    refine .go ?_
    cases hx : next q with
    | none => exact .stop
    | some q' =>
      obtain ⟨h1, h2⟩ := next_some q q' hx
      have h3 := q'.inorder_whole
      rw [h1, q.inorder_whole, h2, hp] at h3
      simp at h3
  | succ n ih =>
    intro hn
    refine .go ?_
    cases hx : next q with
    | none => have := next_none q hx; simp [this] at hn
    | some q' =>
      obtain ⟨h1, h2⟩ := next_some q q' hx
      have h3 := q'.inorder_whole
      rw [h1, q.inorder_whole, h2] at h3
      simp at h3
      rw [h3]
      apply ih q'
      rw [h3] at hn; simpa using hn

theorem visits_prev (q : Pos α) : ∀ n, q.pre.length = n →
    Visits prev (some q) (q.elem :: q.pre.reverse) := by
  intro n
  induction n generalizing q with
  | zero =>
    intro hn
    have hp : q.pre = [] := List.eq_nil_of_length_eq_zero hn
    rw [hp]
    refine .go ?_
    cases hx : prev q with
    | none => exact .stop
    | some q' =>
      obtain ⟨h1, h2⟩ := prev_some q q' hx
      have h3 := q'.inorder_whole
      rw [h1, q.inorder_whole, h2, hp] at h3
      have := congrArg List.length h3
      simp at this
      omega
  | succ n ih =>
    intro hn
    refine .go ?_
    cases hx : prev q with
    | none => have := prev_none q hx; simp [this] at hn
    | some q' =>
      obtain ⟨h1, h2⟩ := prev_some q q' hx
      have h3 := q'.inorder_whole
      rw [h1, q.inorder_whole, h2] at h3
      have h4 : q.pre = q'.pre ++ [q'.elem] := by
        have h5 : q.pre ++ (q.elem :: q.post) = (q'.pre ++ [q'.elem]) ++ (q.elem :: q.post) := by
          simpa using h3
        exact List.append_cancel_right h5
      rw [h4]
      simp
      apply ih q'
      rw [h4] at hn; simpa using hn

/-- C06. Following next from the first node until NULL visits the in-order sequence; following prev
    from the last node visits its reverse. Holds for every tree. -/
theorem C06_iteration (t : Tree α) :
    Visits next (first t) t.inorder ∧ Visits prev (last t) t.inorder.reverse := by
  constructor
  · cases h : first t with
    | none =>
      cases t with
      | nil => exact .stop
      | node c l x r => simp [first] at h
    | some q =>
      obtain ⟨h1, h2⟩ := first_some t q h
      have := q.inorder_whole
      rw [h1, h2] at this
      rw [this]
      exact visits_next q _ rfl
  · cases h : last t with
    | none =>
      cases t with
      | nil => exact .stop
      | node c l x r => simp [last] at h
    | some q =>
      obtain ⟨h1, h2⟩ := last_some t q h
      have := q.inorder_whole
      rw [h1, h2] at this
      rw [this]
      simp
      exact visits_prev q _ rfl

/-! ## C07 -/

theorem runUntil_append (f : Walk α σ) (s : σ × Bool) (a b : List α) :
    runUntil f s (a ++ b) = runUntil f (runUntil f s a) b := by
  induction a generalizing s with
  | nil => rfl
  | cons x a ih =>
    simp only [List.cons_append, runUntil]
    split
    · rename_i h
      cases b <;> simp [runUntil, h]
    · exact ih _

theorem runUntil_done (f : Walk α σ) (s : σ × Bool) (a : List α) (h : s.2 = true) :
    runUntil f s a = s := by
  cases a <;> simp [runUntil, h]

/-- C07. Each traversal equals running the callback along the pre-, in- resp. post-order sequence of
    the nodes, stopping after the first non-zero return. Holds for every tree and callback. -/
theorem C07_traverse (f : Walk α σ) (t : Tree α) (s : σ) :
    traverseDlr f t (s, false) = runUntil f (s, false) (preorder t) ∧
    traverseLdr f t (s, false) = runUntil f (s, false) t.inorder ∧
    traverseLrd f t (s, false) = runUntil f (s, false) (postorder t) := by
  have one : ∀ (s : σ × Bool) (x : α), runUntil f s [x] = if s.2 then s else f s.1 x := by
    intro s x; simp [runUntil]
  have hd : ∀ (t : Tree α) (s : σ × Bool), (if s.2 then s else traverseDlr f t s) = runUntil f s (preorder t) := by
    intro t
    induction t with
    | nil => intro s; simp [traverseDlr, preorder, runUntil]
    | node c l x r ihl ihr =>
      intro s
      have e : preorder (.node c l x r) = [x] ++ (preorder l ++ preorder r) := rfl
      rw [e, runUntil_append, runUntil_append, one]
      simp only [traverseDlr, ihl, ihr]
      split
      · rename_i h; rw [runUntil_done _ _ _ h, runUntil_done _ _ _ h]
      · rfl
  have hi : ∀ (t : Tree α) (s : σ × Bool), (if s.2 then s else traverseLdr f t s) = runUntil f s t.inorder := by
    intro t
    induction t with
    | nil => intro s; simp [traverseLdr, Tree.inorder, runUntil]
    | node c l x r ihl ihr =>
      intro s
      have e : (Tree.node c l x r).inorder = l.inorder ++ ([x] ++ r.inorder) := rfl
      rw [e, runUntil_append, runUntil_append, one]
      simp only [traverseLdr, ihl, ihr]
      split
      · rename_i h
        rw [runUntil_done f s l.inorder h]
        simp only [h, if_true]
        rw [runUntil_done _ _ _ h]
      · rfl
  have hp : ∀ (t : Tree α) (s : σ × Bool), (if s.2 then s else traverseLrd f t s) = runUntil f s (postorder t) := by
    intro t
    induction t with
    | nil => intro s; simp [traverseLrd, postorder, runUntil]
    | node c l x r ihl ihr =>
      intro s
      have e : postorder (.node c l x r) = postorder l ++ postorder r ++ [x] := rfl
      rw [e, runUntil_append, runUntil_append, one]
      simp only [traverseLrd, ihl, ihr]
      split
      · rename_i h
        rw [runUntil_done f s (postorder l) h, runUntil_done f s (postorder r) h]
        simp [h]
      · rfl
  exact ⟨by simpa using hd t (s, false), by simpa using hi t (s, false), by simpa using hp t (s, false)⟩

/-- C07 (early stop). If the callback returns non-zero on a node, no later node of the sequence
    reaches the callback. -/
theorem C07_early_stop (f : Walk α σ) (s : σ) (a : List α) (x : α) (b : List α)
    (h : (runUntil f (s, false) (a ++ [x])).2 = true) :
    runUntil f (s, false) (a ++ x :: b) = runUntil f (s, false) (a ++ [x]) := by
  have : a ++ x :: b = (a ++ [x]) ++ b := by simp
  rw [this, runUntil_append, runUntil_done _ _ _ h]

/-! ## Non-vacuity -/

/-- An integer comparator that ignores the last decimal digit (so that ties exist). -/
def demoCmp : Cmp Int := fun a b => a / 10 - b / 10

theorem demoCmp_lawful : Lawful demoCmp :=
  ⟨fun a b => by simp [demoCmp]; omega, fun a b c => by simp [demoCmp]; omega⟩

/-- A history with ties, removals and rebalancing; the run exists and has the stable order. -/
def demoRoot : Option (Root Int) := do
  let ins := fun (r : Option (Root Int)) x => r.bind fun r => r.insertNode demoCmp x
  let r ← [50, 30, 70, 20, 40, 60, 80, 31, 32, 33, 34].foldl ins (some Root.init)
  let (r, _) ← r.remove demoCmp 50
  let (r, _) ← r.remove demoCmp 35
  return r

example : demoRoot.map (fun r => (r.tree.inorder, r.count)) =
    some ([20, 30, 31, 33, 34, 40, 60, 70, 80], 9) := by decide +kernel

example : ∃ (r : Root Int) (h : List (Op Int × Option Int)), Run demoCmp r h ∧ r.tree.inorder = [20, 50, 51] := by
  refine ⟨_, [(.insert 51, none), (.insert 20, none), (.insert 50, none)],
    .step (.step (.step .init trivial rfl) trivial rfl) trivial rfl, by decide +kernel⟩

example : ∃ (r : Root Int) (h : List (Op Int × Option Int)), Run demoCmp r h ∧
    r.tree.inorder = [50] ∧ r.count = 1 := by
  refine ⟨⟨.node .black .nil 50 .nil, 1⟩, [(.remove 55, some 51), (.insert 50, none), (.insert 51, none)],
    .step (r := ⟨.node .black .nil 51 (.node .red .nil 50 .nil), 2⟩)
      (.step (.step .init trivial rfl) trivial rfl) trivial ?_, by decide +kernel⟩
  simp [exec, Root.remove, findNode, demoCmp, Root.erase, eraseAt, eraseAt.fix, eraseFix, plug, Tree.blacken]

example : traverseLdr (fun (s : List Int) x => (s ++ [x], x == 50))
    (Tree.node .black (.node .red .nil 20 .nil) 50 (.node .red .nil 51 .nil)) ([], false) = ([20, 50], true) := by
  decide +kernel

end Verif.RBTree
