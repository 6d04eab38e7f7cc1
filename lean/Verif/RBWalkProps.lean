import Verif.RBWalkLemmas
import Verif.RBTreeProps
/-!
  C156: walking a tree while the callback erases and frees the node it is given.
-/
namespace Verif.RBWalk

open Verif.RBTree hiding traverseLrd traverseLdr traverseDlr

/-! ## Specification -/

namespace Spec

/-- Run a callback over a sequence of nodes: final state, final "done". -/
def run (cb : Callback α σ) : σ × Bool → List α → σ × Bool
  | s, [] => s
  | s, x :: l => run cb ((cb s.1 x).1, (cb s.1 x).2.2) l

/-- The nodes the callback asks to erase when it is run over a sequence of nodes. -/
def erased (cb : Callback α σ) : σ → List α → List α
  | _, [] => []
  | s, x :: l => (if (cb s x).2.1 then [x] else []) ++ erased cb (cb s x).1 l

/-- Every call is made while no earlier one has returned non-zero. -/
def goesOn (cb : Callback α σ) : σ × Bool → List α → Prop
  | _, [] => True
  | s, x :: l => s.2 = false ∧ goesOn cb ((cb s.1 x).1, (cb s.1 x).2.2) l

end Spec

open Spec

theorem run_append (cb : Callback α σ) (s : σ × Bool) (a b : List α) :
    run cb s (a ++ b) = run cb (run cb s a) b := by
  induction a generalizing s with
  | nil => rfl
  | cons x a ih => simp [run, ih]

theorem goesOn_append {cb : Callback α σ} {s : σ × Bool} {a b : List α} :
    goesOn cb s (a ++ b) ↔ goesOn cb s a ∧ goesOn cb (run cb s a) b := by
  induction a generalizing s with
  | nil => simp [goesOn, run]
  | cons x a ih => simp [goesOn, run, ih, and_assoc]

theorem filter_true (l : List α) : l.filter (fun _ => true) = l :=
  List.filter_eq_self.2 (fun _ _ => rfl)

theorem erased_append (cb : Callback α σ) (s : σ) (d : Bool) (a b : List α) :
    erased cb s (a ++ b) = erased cb s a ++ erased cb (run cb (s, d) a).1 b := by
  induction a generalizing s d with
  | nil => rfl
  | cons x a ih => simp [erased, run, ih (cb s x).1 (cb s x).2.2]

theorem erased_sub {cb : Callback α σ} {s : σ} {a : List α} : ∀ x ∈ erased cb s a, x ∈ a := by
  induction a generalizing s with
  | nil => simp [erased]
  | cons y a ih =>
    intro x hx
    simp only [erased, List.mem_append] at hx
    rcases hx with hx | hx
    · split at hx <;> simp_all
    · exact List.mem_cons_of_mem _ (ih x hx)

/-- What a part of the walk confined to the elements `S` does. -/
structure Post [DecidableEq α] (cb : Callback α σ) (S : List α) (w w' : W α σ) (vis : List α) : Prop where
  log : w'.visited = w.visited ++ vis
  nodup : vis.Nodup
  sub : ∀ x ∈ vis, x ∈ S
  rb : IsRB w'.tree
  kept : w'.tree.inorder = w.tree.inorder.filter (fun x => decide (x ∉ erased cb w.arg vis))
  go : goesOn cb (w.arg, w.done) vis
  out : (w'.arg, w'.done) = run cb (w.arg, w.done) vis
  frame : ∀ d s a sib, HasD w.tree d s a sib → (∀ x ∈ S, x ∈ s.inorder) →
    Keeps d a (s.inorder.filter (fun x => decide (x ∉ erased cb w.arg vis))) sib w'.tree

theorem post_refl [DecidableEq α] (cb : Callback α σ) (S : List α) (w : W α σ) (h : IsRB w.tree) :
    Post cb S w w [] where
  log := by simp
  nodup := by simp
  sub := by simp
  rb := h
  kept := by simp [erased, filter_true]
  go := trivial
  out := rfl
  frame := fun d s a sib hh _ => ⟨s, sib, hh, by simp [erased, filter_true], fun _ h => h⟩

theorem post_mono [DecidableEq α] {cb : Callback α σ} {S S2 : List α} {w w' : W α σ} {vis : List α}
    (h : Post cb S w w' vis) (hs : ∀ x ∈ S, x ∈ S2) : Post cb S2 w w' vis :=
  { h with
    sub := fun x hx => hs x (h.sub x hx)
    frame := fun d s a sib hh hS => h.frame d s a sib hh (fun x hx => hS x (hs x hx)) }

theorem filter_filter_erased [DecidableEq α] {cb : Callback α σ} {s : σ} {d : Bool} {a b : List α} (l : List α) :
    (l.filter (fun x => decide (x ∉ erased cb s a))).filter
      (fun x => decide (x ∉ erased cb (run cb (s, d) a).1 b)) =
    l.filter (fun x => decide (x ∉ erased cb s (a ++ b))) := by
  rw [List.filter_filter, erased_append cb s d]
  congr 1
  funext x
  simp [Bool.and_comm]

theorem run_done_irrel (cb : Callback α σ) (s : σ) (d d' : Bool) (a : List α) :
    (run cb (s, d) a).1 = (run cb (s, d') a).1 := by
  cases a <;> rfl

/-- Two parts one after the other; the second stays within what the first has left of `S`. -/
theorem post_trans [DecidableEq α] {cb : Callback α σ} {S S1 S2 : List α} {w w1 w2 : W α σ} {v1 v2 : List α}
    (h1 : Post cb S1 w w1 v1) (h2 : Post cb S2 w1 w2 v2) (hS1 : ∀ x ∈ S1, x ∈ S)
    (hS2 : ∀ x ∈ S2, x ∈ S ∧ x ∉ S1 ∧ x ∈ w1.tree.inorder) : Post cb S w w2 (v1 ++ v2) := by
  have harg : w1.arg = (run cb (w.arg, w.done) v1).1 := by rw [← h1.out]
  constructor
  · rw [h2.log, h1.log, List.append_assoc]
  · rw [List.nodup_append]
    refine ⟨h1.nodup, h2.nodup, ?_⟩
    rintro x hx y hy rfl
    exact (hS2 x (h2.sub x hy)).2.1 (h1.sub x hx)
  · intro x hx
    rcases List.mem_append.1 hx with hx | hx
    · exact hS1 x (h1.sub x hx)
    · exact (hS2 x (h2.sub x hx)).1
  · exact h2.rb
  · rw [h2.kept, h1.kept, harg, filter_filter_erased]
  · rw [goesOn_append]
    exact ⟨h1.go, by rw [← h1.out]; exact h2.go⟩
  · rw [h2.out, run_append, ← h1.out]
  · intro d s a sib hh hS
    obtain ⟨s1, sib1, g1, g2, g3⟩ := h1.frame d s a sib hh (fun x hx => hS x (hS1 x hx))
    have := h2.frame d s1 a sib1 g1 (fun x hx => by
      rw [g2]
      have hk := (hS2 x hx).2.2
      rw [h1.kept] at hk
      exact List.mem_filter.2 ⟨hS x (hS2 x hx).1, (List.mem_filter.1 hk).2⟩)
    rw [g2, harg, filter_filter_erased] at this
    exact keeps_mono g3 this

theorem filter_ne_middle [DecidableEq α] {a b : List α} {x : α} (h : (a ++ x :: b).Nodup) :
    (a ++ x :: b).filter (fun y => decide (y ∉ [x])) = a ++ b := by
  rw [List.filter_append, List.filter_cons]
  rw [List.nodup_append, List.nodup_cons] at h
  have h1 : a.filter (fun y => decide (y ∉ [x])) = a :=
    List.filter_eq_self.2 (fun y hy => by
      have := h.2.2 y hy x (by simp); simpa using this)
  have h2 : b.filter (fun y => decide (y ∉ [x])) = b :=
    List.filter_eq_self.2 (fun y hy => by
      have := h.2.1.1; simp; rintro rfl; exact this hy)
  rw [h1, h2]; simp

/-- The callback on a node that is in the tree. -/
theorem call_post [DecidableEq α] (cb : Callback α σ) (w : W α σ) (x : α) (hrb : IsRB w.tree)
    (hnd : w.tree.inorder.Nodup) (hx : x ∈ w.tree.inorder) (hd : w.done = false) :
    ∃ w', call cb x w = .ok w' ∧ Post cb [x] w w' [x] := by
  obtain ⟨l, r, hh⟩ := mem_split hx
  obtain ⟨c, p, hp⟩ := has_split hh
  have hloc := locate_at (hp ▸ hnd)
  rw [← hp] at hloc
  unfold call
  rw [hloc]
  simp only
  have hi : w.tree.inorder = (before p ++ l.inorder) ++ x :: (r.inorder ++ after p) := by
    rw [hp, inorder_plug]; simp [Tree.inorder]
  by_cases he : (cb w.arg x).2.1 = true
  · rw [if_pos he]
    obtain ⟨t', ht, hrb'⟩ := eraseAt_rb c l x r p (hp ▸ hrb)
    rw [ht]
    refine ⟨_, rfl, ?_⟩
    have herased : erased cb w.arg [x] = [x] := by simp [erased, he]
    refine ⟨rfl, by simp, by simp, hrb', ?_, ⟨hd, trivial⟩, rfl, ?_⟩
    · rw [herased, hi, filter_ne_middle (hi ▸ hnd), eraseAt_inorder _ _ _ _ _ _ ht]
      simp
    · intro d s a sib hD hS
      rw [herased]
      obtain ⟨l2, r2, hh2⟩ := mem_split (hS x (by simp))
      obtain ⟨c2, q, hq⟩ := has_split hh2
      have : ∃ ca p2, w.tree = plug ((⟨d, ca, a, sib⟩ : Frame α).fill s) p2 := by
        cases d <;> exact has_split hD
      obtain ⟨ca, p2, hp2⟩ := this
      have hw : w.tree = plug (.node c2 l2 x r2) (q ++ ⟨d, ca, a, sib⟩ :: p2) := by
        rw [plug_append, ← hq, hp2]; rfl
      have hloc2 := locate_at (hw ▸ hnd)
      rw [← hw, hloc] at hloc2
      simp at hloc2
      obtain ⟨rfl, rfl, rfl, rfl⟩ := hloc2
      have hk := eraseAt_above ht
      have hsi : s.inorder = (before q ++ l.inorder) ++ x :: (r.inorder ++ after q) := by
        rw [hq, inorder_plug]; simp [Tree.inorder]
      have hsn : s.inorder.Nodup := by
        have h := hnd
        rw [hp2, inorder_plug, List.nodup_append, List.nodup_append] at h
        have h := h.1.2.1
        cases d <;> simp only [Frame.fill, Tree.inorder, List.nodup_append, List.nodup_cons] at h
        · exact h.1
        · exact h.2.1.2
      rw [hsi, filter_ne_middle (hsi ▸ hsn)]
      simpa using hk
  · rw [if_neg he]
    refine ⟨_, rfl, ?_⟩
    have herased : erased cb w.arg [x] = [] := by simp [erased, he]
    refine ⟨rfl, by simp, by simp, hrb, by simp [herased, filter_true], ⟨hd, trivial⟩, rfl, ?_⟩
    intro d s a sib hD hS
    exact ⟨s, sib, hD, by simp [herased, filter_true], fun _ h => h⟩

/-- A list cannot hold more distinct elements than another one it is contained in. -/
theorem length_le_of_nodup_sub [DecidableEq α] : ∀ {a b : List α}, a.Nodup → (∀ x ∈ a, x ∈ b) →
    a.length ≤ b.length := by
  intro a
  induction a with
  | nil => intro b _ _; simp
  | cons x a ih =>
    intro b hn hs
    rw [List.nodup_cons] at hn
    have h1 : x ∈ b := hs x (by simp)
    have := ih (b := b.erase x) hn.2 (fun y hy =>
      (List.mem_erase_of_ne (by rintro rfl; exact hn.1 hy)).2 (hs y (by simp [hy])))
    rw [List.length_erase_of_mem h1] at this
    have : 0 < b.length := List.length_pos_of_mem h1
    simp; omega

/-- The post-order walk of the subtree rooted at one node. -/
theorem lrd_post [DecidableEq α] (cb : Callback α σ) : ∀ (n : Nat) (w : W α σ) (u : Tree α) (p : Path α),
    w.tree = plug u p → IsRB w.tree → w.tree.inorder.Nodup → u.inorder.length ≤ n → w.done = false →
    ∃ w' vis, lrd cb n w (ptr u) = .ok w' ∧ Post cb u.inorder w w' vis := by
  intro n
  induction n with
  | zero =>
    intro w u p hw hrb hnd hlen hd
    cases u with
    | nil => exact ⟨w, [], rfl, post_refl _ _ _ hrb⟩
    | node c l x r => simp [Tree.inorder] at hlen
  | succ n ih =>
    intro w u p hw hrb hnd hlen hd
    cases u with
    | nil => exact ⟨w, [], rfl, post_refl _ _ _ hrb⟩
    | node c l x r =>
      simp only [Tree.inorder, List.length_append, List.length_cons] at hlen
      have hsub : (Tree.node c l x r).inorder.Nodup := by
        have h := hnd
        rw [hw, inorder_plug, List.nodup_append, List.nodup_append] at h
        exact h.1.2.1
      have hu : (Tree.node c l x r).inorder = l.inorder ++ x :: r.inorder := rfl
      rw [hu, List.nodup_append, List.nodup_cons] at hsub
      obtain ⟨hln, ⟨hxr, hrn⟩, hlr⟩ := hsub
      have hxl : x ∉ l.inorder := fun h => hlr x h x (by simp) rfl
      have hxt : x ∈ w.tree.inorder := by
        rw [hw, inorder_plug]; simp [Tree.inorder]
      -- the left subtree
      obtain ⟨w1, v1, hr1, hp1⟩ := ih w l (⟨.L, c, x, r⟩ :: p) hw hrb hnd (by omega) hd
      have hloc := locate_at (hw ▸ hnd)
      rw [← hw] at hloc
      have hc1 : child Pos.left (lrd cb n) x w = .ok w1 := by
        unfold child; rw [hloc]; exact hr1
      have hnd1 : w1.tree.inorder.Nodup := by
        rw [hp1.kept]; exact List.Nodup.sublist List.filter_sublist hnd
      have hx1 : x ∈ w1.tree.inorder := by
        rw [hp1.kept]
        exact List.mem_filter.2 ⟨hxt, by
          simp only [decide_eq_true_eq]
          exact fun h => hxl (hp1.sub x (erased_sub x h))⟩
      simp only [lrd, Res.part, Res.bind, ptr, hd, hc1]
      simp only [Bool.false_eq_true, if_false]
      by_cases hd1 : w1.done = true
      · simp only [hd1, if_true]
        exact ⟨w1, v1, rfl, post_mono hp1 (by simp +contextual [Tree.inorder])⟩
      · have hd1 : w1.done = false := by simpa using hd1
        simp only [hd1, Bool.false_eq_true, if_false]
        -- the right subtree, as it is now
        obtain ⟨l1, r1, hh1, -, hr1sub⟩ :=
          hp1.frame .L l x r (by rw [hw]; exact has_at c l x r p) (fun _ h => h)
        obtain ⟨c1, p1, hw1⟩ := has_split (show Has w1.tree l1 x r1 from hh1)
        have hloc1 := locate_at (hw1 ▸ hnd1)
        rw [← hw1] at hloc1
        have hr1n : r1.inorder.Nodup := by
          have h := hnd1
          rw [hw1, inorder_plug, List.nodup_append, List.nodup_append] at h
          have h := h.1.2.1
          simp only [Tree.inorder, List.nodup_append, List.nodup_cons] at h
          exact h.2.1.2
        have hr1t : ∀ y ∈ r1.inorder, y ∈ w1.tree.inorder := by
          intro y hy; rw [hw1, inorder_plug]; simp [Tree.inorder, hy]
        have hlen1 := length_le_of_nodup_sub hr1n hr1sub
        obtain ⟨w2, v2, hr2, hp2⟩ := ih w1 r1 (⟨.R, c1, x, l1⟩ :: p1) hw1 hp1.rb hnd1 (by omega) hd1
        have hc2 : child Pos.right (lrd cb n) x w1 = .ok w2 := by
          unfold child; rw [hloc1]; exact hr2
        have hp12 : Post cb (l.inorder ++ r.inorder) w w2 (v1 ++ v2) :=
          post_trans hp1 hp2 (by simp +contextual) (fun y hy =>
            ⟨by simp [hr1sub y hy],
             fun h => hlr y h y (by simp [hr1sub y hy]) rfl, hr1t y hy⟩)
        simp only [hc2]
        by_cases hd2 : w2.done = true
        · simp only [hd2, if_true]
          exact ⟨w2, _, rfl, post_mono hp12 (by simp +contextual [Tree.inorder, or_imp])⟩
        · have hd2 : w2.done = false := by simpa using hd2
          simp only [hd2, Bool.false_eq_true, if_false]
          have hnd2 : w2.tree.inorder.Nodup := by
            rw [hp2.kept]; exact List.Nodup.sublist List.filter_sublist hnd1
          have hx2 : x ∈ w2.tree.inorder := by
            rw [hp2.kept]
            exact List.mem_filter.2 ⟨hx1, by
              simp only [decide_eq_true_eq]
              exact fun h => hxr (hr1sub x (hp2.sub x (erased_sub x h)))⟩
          obtain ⟨w3, hr3, hp3⟩ := call_post cb w2 x hp2.rb hnd2 hx2 hd2
          refine ⟨w3, _, hr3, post_trans hp12 hp3 (by simp +contextual [Tree.inorder, or_imp]) ?_⟩
          intro y hy
          simp at hy; subst hy
          exact ⟨by simp [Tree.inorder], by simp [hxl, hxr], hx2⟩

/-! ## Properties -/

/-- C156 (post-order walk).  Take any tree that obeys the red-black rules and whose nodes are
    distinct, and any callback, even one that erases and frees some of the nodes it is given.
    `aosl_rb_traverse_lrd` never follows a pointer to an erased node and never dereferences NULL; it
    comes back; it gives each node of the tree to the callback at most once, and none after the
    callback has returned non-zero; the tree it leaves still obeys the red-black rules and holds, in
    the same order, exactly the nodes the callback did not erase. -/
theorem C156_post_order [DecidableEq α] (cb : Callback α σ) (t : Tree α) (arg : σ) (hrb : IsRB t)
    (hnd : t.inorder.Nodup) (depth : Nat) (hdepth : t.inorder.length ≤ depth) :
    ∃ w, traverseLrd cb depth t arg = .ok w ∧
      w.visited.Nodup ∧ (∀ x ∈ w.visited, x ∈ t.inorder) ∧
      goesOn cb (arg, false) w.visited ∧
      (w.arg, w.done) = run cb (arg, false) w.visited ∧
      w.tree.inorder = t.inorder.filter (fun x => decide (x ∉ erased cb arg w.visited)) ∧
      IsRB w.tree := by
  obtain ⟨w, vis, h, hp⟩ := lrd_post cb depth ⟨t, arg, false, []⟩ t [] rfl hrb hnd hdepth rfl
  have hv : w.visited = vis := by simpa using hp.log
  subst hv
  exact ⟨w, h, hp.nodup, hp.sub, hp.go, hp.out, hp.kept, hp.rb⟩

/-- The same for every tree a program can build with the API (C01 to C05 histories), as long as no
    node is linked twice: the tree after the walk has as many nodes as before less the erased ones. -/
theorem C156_reachable [DecidableEq α] {cmp : Cmp α} (hl : Lawful cmp) {r : Root α} {h}
    (hr : Run cmp r h) (hnd : r.tree.inorder.Nodup) (cb : Callback α σ) (arg : σ) :
    ∃ w, traverseLrd cb r.count r.tree arg = .ok w ∧
      Spec.RedBlack w.tree ∧
      w.tree.inorder.length + (erased cb arg w.visited).length = r.count := by
  have hg := (run_good hl hr).1
  obtain ⟨w, h1, h2, h3, -, -, h6, h7⟩ :=
    C156_post_order cb r.tree arg hg.rb hnd r.count (by rw [hg.count]; exact Nat.le_refl _)
  refine ⟨w, h1, isRB_redBlack h7, ?_⟩
  have hen : (erased cb arg w.visited).Nodup := by
    have : ∀ (s : σ) (l : List α), (erased cb s l).Sublist l := by
      intro s l
      induction l generalizing s with
      | nil => exact List.Sublist.slnil
      | cons x l ih =>
        simp only [erased]
        split
        · exact List.Sublist.cons_cons x (ih _)
        · exact List.Sublist.cons x (ih _)
    exact List.Nodup.sublist (this _ _) h2
  have hcount : ∀ (m e : List α), m.Nodup → e.Nodup → (∀ x ∈ e, x ∈ m) →
      (m.filter (fun x => decide (x ∉ e))).length + e.length = m.length := by
    intro m e hm he hs
    have h1 : (m.filter (fun x => decide (x ∈ e))).length = e.length := by
      apply Nat.le_antisymm
      · exact length_le_of_nodup_sub (List.Nodup.sublist List.filter_sublist hm)
          (fun x hx => by simpa using (List.mem_filter.1 hx).2)
      · exact length_le_of_nodup_sub he
          (fun x hx => List.mem_filter.2 ⟨hs x hx, by simpa using hx⟩)
    have h2 : ∀ l : List α, l.length = (l.filter (fun x => decide (x ∈ e))).length +
        (l.filter (fun x => !decide (x ∈ e))).length := by
      intro l
      induction l with
      | nil => rfl
      | cons y l ih => by_cases hy : y ∈ e <;> simp [hy, ih] <;> omega
    have h2 := h2 m
    have h3 : (m.filter (fun x => decide (x ∉ e))) = m.filter (fun x => !decide (x ∈ e)) := by
      congr 1; funext x; simp
    rw [h3]; omega
  rw [h6, hg.count]
  exact hcount _ _ hnd hen (fun x hx => h3 x (erased_sub x hx))

/-- Some progress is certain: unless the callback stops the walk, the node at the root when the walk
    starts is given to the callback. -/
theorem C156_visits_root [DecidableEq α] (cb : Callback α σ) (c : Color) (l : Tree α) (x : α) (r : Tree α)
    (arg : σ) (depth : Nat) (w : W α σ) (h : traverseLrd cb depth (.node c l x r) arg = .ok w)
    (hd : w.done = false) : x ∈ w.visited := by
  unfold traverseLrd ptr at h
  cases depth with
  | zero => simp [lrd] at h
  | succ n =>
    simp only [lrd, Res.part, Res.bind, Bool.false_eq_true, if_false] at h
    have key : ∀ (o : Res α σ), (match o with
        | .ok w => if w.done = true then .ok w else call cb x w
        | e => e) = Res.ok w → x ∈ w.visited := by
      intro o ho
      cases o with
      | ok w0 =>
        simp only at ho
        split at ho
        · rename_i h1; cases ho; rw [h1] at hd; cases hd
        · unfold call at ho
          split at ho
          · cases ho
          · simp only at ho
            split at ho
            · split at ho
              · cases ho
              · cases ho; simp
            · cases ho; simp
      | _ => cases ho
    exact key _ h

/-- A callback that erases nothing and never stops the walk is given every node, children before
    their parent (this ties the walk to C07). -/
theorem C156_all_when_unchanged [DecidableEq α] (cb : Callback α σ) (t : Tree α) (arg : σ)
    (hcb : ∀ s x, (cb s x).2 = (false, false)) (hnd : t.inorder.Nodup) (depth : Nat)
    (hdepth : t.inorder.length ≤ depth) :
    ∃ a, traverseLrd cb depth t arg = .ok ⟨t, a, false, Spec.postorder t⟩ := by
  have key : ∀ (n : Nat) (w : W α σ) (u : Tree α) (p : Path α), w.tree = plug u p →
      w.tree.inorder.Nodup → u.inorder.length ≤ n → w.done = false →
      ∃ a, lrd cb n w (ptr u) = .ok ⟨w.tree, a, false, w.visited ++ Spec.postorder u⟩ := by
    intro n
    induction n with
    | zero =>
      intro w u p hw hn hlen hd
      cases u with
      | nil => exact ⟨w.arg, by cases w; simp_all [lrd, ptr, Spec.postorder]⟩
      | node c l x r => simp [Tree.inorder] at hlen
    | succ n ih =>
      intro w u p hw hn hlen hd
      cases u with
      | nil => exact ⟨w.arg, by cases w; simp_all [lrd, ptr, Spec.postorder]⟩
      | node c l x r =>
        simp only [Tree.inorder, List.length_append, List.length_cons] at hlen
        have hloc := locate_at (hw ▸ hn)
        rw [← hw] at hloc
        obtain ⟨a1, h1⟩ := ih w l (⟨.L, c, x, r⟩ :: p) hw hn (by omega) hd
        obtain ⟨a2, h2⟩ := ih ⟨w.tree, a1, false, w.visited ++ Spec.postorder l⟩ r
          (⟨.R, c, x, l⟩ :: p) hw hn (by omega) rfl
        have hc1 : child Pos.left (lrd cb n) x w =
            .ok ⟨w.tree, a1, false, w.visited ++ Spec.postorder l⟩ := by unfold child; rw [hloc]; exact h1
        have hc2 : child Pos.right (lrd cb n) x ⟨w.tree, a1, false, w.visited ++ Spec.postorder l⟩ =
            .ok ⟨w.tree, a2, false, (w.visited ++ Spec.postorder l) ++ Spec.postorder r⟩ := by
          unfold child; rw [hloc]; exact h2
        refine ⟨(cb a2 x).1, ?_⟩
        simp only [lrd, Res.part, Res.bind, ptr, hd, hc1, hc2, Bool.false_eq_true, if_false]
        simp [call, hloc, hcb, Spec.postorder]
  obtain ⟨a, h⟩ := key depth ⟨t, arg, false, []⟩ t [] rfl hnd hdepth rfl
  exact ⟨a, by simpa [traverseLrd] using h⟩

/-- Erasing the node it is given leaves it out of the tree. -/
theorem call_erases [DecidableEq α] (cb : Callback α σ) (w : W α σ) (x : α) (hrb : IsRB w.tree)
    (hnd : w.tree.inorder.Nodup) (hx : x ∈ w.tree.inorder) (hd : w.done = false)
    (he : (cb w.arg x).2 = (true, false)) :
    ∃ w', call cb x w = .ok w' ∧ w'.done = false ∧ x ∉ w'.tree.inorder := by
  obtain ⟨w', h1, h2⟩ := call_post cb w x hrb hnd hx hd
  have ho := h2.out
  simp only [run, he, Prod.mk.injEq] at ho
  refine ⟨w', h1, ho.2, ?_⟩
  rw [h2.kept]
  simp [erased, he]

/-- The other two orders are not safe with such a callback.  Pre-order: if the callback erases the
    root node (the first it is given) and goes on, the walk reads the child links of the freed node. -/
theorem C156_pre_order_unsafe [DecidableEq α] (cb : Callback α σ) (c : Color) (l : Tree α) (x : α)
    (r : Tree α) (arg : σ) (hrb : IsRB (.node c l x r)) (hnd : (Tree.node c l x r).inorder.Nodup)
    (he : (cb arg x).2 = (true, false)) (depth : Nat) (hdepth : 0 < depth) :
    traverseDlr cb depth (.node c l x r) arg = .stale := by
  cases depth with
  | zero => omega
  | succ n =>
    obtain ⟨w, h1, h2, h3⟩ := call_erases cb ⟨.node c l x r, arg, false, []⟩ x hrb hnd
      (by simp [Tree.inorder]) rfl he
    simp [traverseDlr, ptr, dlr, Res.part, Res.bind, h1, h2, child, locate_none h3]

/-- In-order: if the callback erases the first (smallest) node and goes on, the walk reads the right
    link of the freed node. -/
theorem C156_in_order_unsafe [DecidableEq α] (cb : Callback α σ) (t : Tree α) (arg : σ) (hrb : IsRB t)
    (hnd : t.inorder.Nodup) (m : α) (hm : t.inorder.head? = some m)
    (he : (cb arg m).2 = (true, false)) (depth : Nat) (hdepth : t.inorder.length ≤ depth) :
    traverseLdr cb depth t arg = .stale := by
  have key : ∀ (n : Nat) (u : Tree α) (p : Path α), t = plug u p → u.inorder.length ≤ n →
      u.inorder.head? = some m → ldr cb n ⟨t, arg, false, []⟩ (ptr u) = .stale := by
    intro n
    induction n with
    | zero =>
      intro u p hp hlen hh
      cases u <;> simp [Tree.inorder] at hh hlen
    | succ n ih =>
      intro u p hp hlen hh
      cases u with
      | nil => simp [Tree.inorder] at hh
      | node c l x r =>
        have hloc := locate_at (hp ▸ hnd)
        rw [← hp] at hloc
        simp only [Tree.inorder, List.length_append, List.length_cons] at hlen
        cases l with
        | nil =>
          simp [Tree.inorder] at hh
          subst hh
          obtain ⟨w, h1, h2, h3⟩ := call_erases cb ⟨t, arg, false, []⟩ x hrb hnd
            (by simp only; rw [hp, inorder_plug]; simp [Tree.inorder]) rfl he
          have hc : child Pos.left (ldr cb n) x ⟨t, arg, false, []⟩ = .ok ⟨t, arg, false, []⟩ := by
            unfold child; rw [hloc]; cases n <;> rfl
          have hs : child Pos.right (ldr cb n) x w = .stale := by simp [child, locate_none h3]
          simp [ptr, ldr, Res.part, Res.bind, hc, h1, h2, hs]
        | node lc ll lx lr =>
          have hh' : (Tree.node lc ll lx lr).inorder.head? = some m := by
            rw [← hh]
            simp only [Tree.inorder]
            cases ll.inorder <;> rfl
          have := ih (.node lc ll lx lr) (⟨.L, c, x, r⟩ :: p) hp (by omega) hh'
          have hc : child Pos.left (ldr cb n) x ⟨t, arg, false, []⟩ = .stale := by
            unfold child; rw [hloc]; exact this
          simp [ptr, ldr, Res.part, Res.bind, hc]
  exact key depth t [] rfl hdepth hm

/-- The cleanup of the per-thread records of a reference object: for every set of records (a tree as
    the API builds it), no freed record is touched; every record that is in use, that holds or waits
    for a lock, or that was active within the last minute is still there, in order; nothing but idle
    records is gone; with at most 64 records nothing is done at all. -/
theorem C156_cleanup_partial {cmp : Cmp TNode} (hl : Lawful cmp) {r : Root TNode} {h}
    (hr : Run cmp r h) (hnd : r.tree.inorder.Nodup) (now : Nat) :
    ∃ w, cleanup now r.count r = .ok w ∧
      w.tree.inorder.Sublist r.tree.inorder ∧
      (∀ n ∈ r.tree.inorder, n ∉ w.tree.inorder →
        n.usage = 1 ∧ n.getCount = 0 ∧ n.lockCount = 0 ∧ n.ts + 60000 ≤ now) ∧
      (r.count ≤ 64 → w.tree = r.tree) := by
  have hg := (run_good hl hr).1
  unfold cleanup
  split
  · rename_i hc
    obtain ⟨w, h1, h2, h3, -, -, h6, h7⟩ := C156_post_order (checkErase now) r.tree () hg.rb hnd
      r.count (by rw [hg.count]; exact Nat.le_refl _)
    refine ⟨w, h1, by rw [h6]; exact List.filter_sublist, ?_, fun hh => by
      simp only [cleanupThreshold] at hc; omega⟩
    intro n hn hgone
    have hmem : n ∈ erased (checkErase now) () w.visited := by
      rw [h6] at hgone
      exact Classical.byContradiction fun hne =>
        hgone (List.mem_filter.2 ⟨hn, by simpa using hne⟩)
    have hid : ∀ l, n ∈ erased (checkErase now) () l → idle now n = true := by
      intro l
      induction l with
      | nil => simp [erased]
      | cons x l ih =>
        intro hm
        simp only [erased, List.mem_append] at hm
        rcases hm with hm | hm
        · split at hm
          · rename_i hx
            simp at hm; subst hm; exact hx
          · simp at hm
        · exact ih hm
    have := hid _ hmem
    simp only [idle, maxIdle, Bool.and_eq_true, beq_iff_eq] at this
    have h4 := of_decide_eq_true this.2
    exact ⟨this.1.1.1, this.1.1.2, this.1.2, by omega⟩
  · exact ⟨_, rfl, List.Sublist.refl _, fun n hn hh => absurd hn hh, fun _ => rfl⟩

/-! ### what is missing: idle records can stay behind -/

/-- Comparison by thread id (`cmp_thread`, kernel/refobj.c:257-275). -/
def cmpTid : Cmp TNode := fun a b => (a.tid : Int) - b.tid

/-- The records of `n` threads that once used the object and are idle since time 0. -/
def idleThreads (n : Nat) : Option (Root TNode) :=
  (List.range n).foldlM (fun r i => r.insertNode cmpTid ⟨i, 1, 0, 0, 0⟩) Root.init

/-- C156, the missing half: with 65 records, all idle for over a minute, one cleanup frees 15 of them
    and does not even look at the other 50, because the rebalancing moves them out of the subtrees the
    walk has yet to enter. -/
theorem C156_cleanup_leaves_idle :
    ∃ r w, idleThreads 65 = some r ∧ cleanup 100000 r.count r = .ok w ∧
      r.tree.inorder.length = 65 ∧ (∀ n ∈ r.tree.inorder, idle 100000 n = true) ∧
      w.visited.length = 15 ∧ w.tree.inorder.length = 50 := by
  have : (match idleThreads 65 with
    | none => false
    | some r => match cleanup 100000 r.count r with
      | .ok w => decide (r.tree.inorder.length = 65) && r.tree.inorder.all (idle 100000) &&
          decide (w.visited.length = 15) && decide (w.tree.inorder.length = 50)
      | _ => false) = true := by decide +kernel
  split at this
  · cases this
  · rename_i r hr
    split at this
    · rename_i w hw
      simp only [Bool.and_eq_true, decide_eq_true_eq, List.all_eq_true] at this
      exact ⟨r, w, hr, hw, this.1.1.1, this.1.1.2, this.1.2, this.2⟩
    · cases this

/-- The same on four nodes: the callback erases everything it is given, the walk sees two nodes. -/
theorem C156_skips :
    ∃ t w, IsRB t ∧ t.inorder = [0, 1, 2, 3] ∧
      traverseLrd (fun (_ : Unit) (_ : Nat) => ((), true, false)) 4 t () = .ok w ∧
      w.visited = [0, 1] ∧ w.tree.inorder = [2, 3] := by
  refine ⟨.node .black (.node .black .nil 0 .nil) 1
      (.node .black .nil 2 (.node .red .nil 3 .nil)),
      ⟨.node .black .nil 2 (.node .red .nil 3 .nil), (), false, [0, 1]⟩,
      ⟨rfl, ?_, 2, ?_⟩, rfl, by decide +kernel, rfl, rfl⟩
  · simp [NoRR, Tree.isRed]
  · simp [Bal]

/-! ### the hypotheses are met -/

/-- A tree of nine nodes and a callback that erases the even ones and stops at 5. -/
example : (match (List.range 9).foldlM
      (fun r x => r.insertNode (fun a b : Nat => (a : Int) - b) x) Root.init with
    | none => false
    | some r => decide (r.tree.inorder.Nodup) && decide (r.tree.inorder.length = 9) &&
      (match traverseLrd (fun (s : Nat) (x : Nat) => (s + 1, x % 2 = 0, x = 5)) 9 r.tree 0 with
        | .ok w => decide (w.visited = [0, 2, 1, 4, 6, 5]) && decide (w.tree.inorder = [1, 3, 5, 7, 8]) && w.done
        | _ => false)) = true := by decide +kernel

example : IsRB (.node .black .nil (3 : Nat) .nil) ∧
    traverseDlr (fun (_ : Unit) (_ : Nat) => ((), true, false)) 1 (.node .black .nil 3 .nil) () = .stale ∧
    traverseLdr (fun (_ : Unit) (_ : Nat) => ((), true, false)) 1 (.node .black .nil 3 .nil) () = .stale :=
  ⟨⟨rfl, by simp [NoRR, Tree.isRed], 1, by simp [Bal]⟩, by decide +kernel, by decide +kernel⟩

/-- The condition of the cleanup, exactly: nobody uses the node, no lock and no reference is counted, and it has been idle for a minute or more. -/
theorem C156_idle_exact (now : Nat) (n : TNode) (ht : n.ts ≤ now) :
    idle now n = true ↔ n.usage = 1 ∧ n.getCount = 0 ∧ n.lockCount = 0 ∧ n.ts + 60000 ≤ now := by
  simp only [idle, Bool.and_eq_true, beq_iff_eq]
  rw [decide_eq_true_iff]
  have : maxIdle = 60000 := rfl
  omega

/-- A small tree is not walked at all: nothing is visited or removed, and the walk does not count as stopped. -/
theorem C156_small (now depth : Nat) (r : Root TNode) (h : r.count ≤ 64) : cleanup now depth r = .ok ⟨r.tree, (), false, []⟩ := by
  have : ¬ r.count > cleanupThreshold := by unfold cleanupThreshold; omega
  simp [cleanup, this]

end Verif.RBWalk
