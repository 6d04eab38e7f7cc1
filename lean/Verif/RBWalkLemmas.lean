import Verif.RBWalk
import Verif.RBTreeLemmas
/-! How one erasure moves the other nodes: lemmas for `Verif.RBWalkProps`. -/
namespace Verif.RBWalk

open Verif.RBTree

/-- In tree `t` the node `x` has exactly the children `l` and `r`. -/
def Has : Tree α → Tree α → α → Tree α → Prop
  | .nil, _, _, _ => False
  | .node _ l' y r', l, x, r => (l' = l ∧ y = x ∧ r' = r) ∨ Has l' l x r ∨ Has r' l x r

theorem has_blacken (t l : Tree α) (x : α) (r : Tree α) : Has t.blacken l x r ↔ Has t l x r := by
  cases t <;> simp [Tree.blacken, Has]

theorem has_fill {f : Frame α} {t l r : Tree α} {x : α} (h : Has t l x r) : Has (f.fill t) l x r := by
  unfold Frame.fill
  split <;> simp [Has, h]

theorem has_plug {t l r : Tree α} {x : α} {p : Path α} (h : Has t l x r) : Has (plug t p) l x r := by
  induction p generalizing t with
  | nil => exact h
  | cons f p ih => exact ih (has_fill h)

theorem has_at (c : Color) (l : Tree α) (x : α) (r : Tree α) (p : Path α) :
    Has (plug (.node c l x r) p) l x r := has_plug (by simp [Has])

theorem has_split {t l r : Tree α} {x : α} (h : Has t l x r) :
    ∃ c p, t = plug (.node c l x r) p := by
  induction t with
  | nil => exact h.elim
  | node c l' y r' ihl ihr =>
    rcases h with ⟨rfl, rfl, rfl⟩ | h | h
    · exact ⟨c, [], rfl⟩
    · obtain ⟨c', p, hp⟩ := ihl h
      exact ⟨c', p ++ [⟨.L, c, y, r'⟩], by simp [plug_append, ← hp, plug, Frame.fill]⟩
    · obtain ⟨c', p, hp⟩ := ihr h
      exact ⟨c', p ++ [⟨.R, c, y, l'⟩], by simp [plug_append, ← hp, plug, Frame.fill]⟩

theorem mem_split {t : Tree α} {x : α} (h : x ∈ t.inorder) : ∃ l r, Has t l x r := by
  induction t with
  | nil => simp [Tree.inorder] at h
  | node c l y r ihl ihr =>
    simp [Tree.inorder] at h
    rcases h with h | h | h
    · obtain ⟨a, b, hab⟩ := ihl h; exact ⟨a, b, .inr (.inl hab)⟩
    · exact ⟨l, r, .inl ⟨rfl, h.symm, rfl⟩⟩
    · obtain ⟨a, b, hab⟩ := ihr h; exact ⟨a, b, .inr (.inr hab)⟩

/-- What one iteration keeps. -/
def EStep.All (P : Tree α → Prop) : EStep α → Prop
  | .cont n _ => P n
  | .done t => P t

theorem eraseStep2_has {node l r : Tree α} {x : α} {p : Frame α} {rest : Path α} {s : EStep α}
    (hn : Has node l x r) (h : eraseStep2 node p rest = some s) :
    EStep.All (fun t => Has t l x r) s := by
  obtain ⟨d, c, k, sib⟩ := p
  unfold eraseStep2 at h
  split at h
  · simp at h
  · split at h
    · simp at h; subst h; exact has_fill hn
    · cases d <;> simp only at h <;> split at h <;> (try split at h) <;> simp at h <;> subst h <;>
        simp only [EStep.All, has_blacken] <;> apply has_plug <;> simp [Has, hn]

theorem eraseStep_has {node l r : Tree α} {x : α} {p : Frame α} {rest : Path α} {s : EStep α}
    (hn : Has node l x r) (h : eraseStep node p rest = some s) :
    EStep.All (fun t => Has t l x r) s := by
  unfold eraseStep at h
  split at h
  · simp at h
  · split at h <;> exact eraseStep2_has hn h
  · exact eraseStep2_has hn h

/-- A node below the focus keeps its children. -/
theorem eraseFix_has {node l r : Tree α} {x : α} {p : Path α} {t : Tree α}
    (hn : Has node l x r) (h : eraseFix node p = some t) : Has t l x r := by
  fun_induction eraseFix node p with
  | case1 node path hr => simp at h; subst h; exact has_plug ((has_blacken _ _ _ _).2 hn)
  | case2 node hr => simp at h; subst h; exact (has_blacken _ _ _ _).2 hn
  | case3 => simp at h
  | case4 node hr p rest t' hs => simp at h; subst h; exact eraseStep_has hn hs
  | case5 node hr p rest n' p' hs ih => exact ih (eraseStep_has hn hs) h

/-- One iteration only pushes frames above the rest of the path. -/
theorem eraseStep2_shape {node : Tree α} {p : Frame α} {rest : Path α} {s : EStep α}
    (h : eraseStep2 node p rest = some s) :
    match s with
    | .cont _ p' => p' = rest
    | .done t => ∃ u, t = (plug u rest).blacken := by
  obtain ⟨d, c, k, sib⟩ := p
  unfold eraseStep2 at h
  split at h
  · simp at h
  · split at h
    · simp at h; subst h; rfl
    · cases d <;> simp only at h <;> split at h <;> (try split at h) <;> simp at h <;> subst h <;>
        exact ⟨_, rfl⟩

theorem eraseStep_shape {node : Tree α} {p : Frame α} {rest : Path α} {s : EStep α}
    (h : eraseStep node p rest = some s) :
    match s with
    | .cont _ p' => ∃ g, p' = g ++ rest
    | .done t => ∃ u, t = (plug u rest).blacken := by
  unfold eraseStep at h
  split at h
  · simp at h
  · rename_i ol ox or hs
    split at h
    · have := eraseStep2_shape h
      cases s with
      | cont n p' => exact ⟨[_], this⟩
      | done t => obtain ⟨u, hu⟩ := this; exact ⟨_, hu⟩
    · have := eraseStep2_shape h
      cases s with
      | cont n p' => exact ⟨[_], this⟩
      | done t => obtain ⟨u, hu⟩ := this; exact ⟨_, hu⟩
  · have := eraseStep2_shape h
    cases s with
    | cont n p' => exact ⟨[], this⟩
    | done t => exact this

/-- Node `a` has the subtree `s` on side `d` and `sib` on the other side. -/
def HasD (t : Tree α) (d : Dir) (s : Tree α) (a : α) (sib : Tree α) : Prop :=
  match d with
  | .L => Has t s a sib
  | .R => Has t sib a s

/-- Node `a` still has the elements `m` on side `d`, and nothing new on the other side. -/
def Keeps (d : Dir) (a : α) (m : List α) (sib : Tree α) (t : Tree α) : Prop :=
  ∃ s' sib', HasD t d s' a sib' ∧ s'.inorder = m ∧ ∀ y ∈ sib'.inorder, y ∈ sib.inorder

theorem hasD_plug {t : Tree α} {d s a sib} {p : Path α} (h : HasD t d s a sib) :
    HasD (plug t p) d s a sib := by
  cases d <;> exact has_plug h

theorem hasD_blacken {t : Tree α} {d s a sib} : HasD t.blacken d s a sib ↔ HasD t d s a sib := by
  cases d <;> exact has_blacken _ _ _ _

theorem hasD_fill (d : Dir) (c : Color) (a : α) (sib s : Tree α) :
    HasD ((⟨d, c, a, sib⟩ : Frame α).fill s) d s a sib := by
  cases d <;> simp [HasD, Frame.fill, Has]

theorem eraseFix_hasD {node : Tree α} {d s a sib} {p : Path α} {t : Tree α}
    (hn : HasD node d s a sib) (h : eraseFix node p = some t) : HasD t d s a sib := by
  cases d <;> exact eraseFix_has hn h

theorem eraseFix_keeps {node : Tree α} {d a m sib} {p : Path α} {t : Tree α}
    (hn : Keeps d a m sib node) (h : eraseFix node p = some t) : Keeps d a m sib t := by
  obtain ⟨s', sib', h1, h2⟩ := hn
  exact ⟨s', sib', eraseFix_hasD h1 h, h2⟩

theorem eraseStep2_at {node : Tree α} {d c a sib} {rest : Path α} {s : EStep α}
    (h : eraseStep2 node ⟨d, c, a, sib⟩ rest = some s) :
    EStep.All (Keeps d a node.inorder sib) s := by
  unfold eraseStep2 at h
  split at h
  · simp at h
  · rename_i oc ol ox or hs
    simp at hs; subst hs
    split at h
    · simp at h; subst h
      exact ⟨node, _, hasD_fill _ _ _ _ _, rfl, by simp [Tree.inorder]⟩
    · cases d
      · simp only at h
        split at h
        · split at h
          · simp at h
          · rename_i olc oll olx olr _
            simp at h; subst h
            exact ⟨node, oll, hasD_blacken.2 (hasD_plug (by simp [HasD, Has])), rfl,
              by simp +contextual [Tree.inorder]⟩
        · simp at h; subst h
          exact ⟨node, ol, hasD_blacken.2 (hasD_plug (by simp [HasD, Has])), rfl,
            by simp +contextual [Tree.inorder]⟩
      · simp only at h
        split at h
        · split at h
          · simp at h
          · rename_i olc oll olx olr _
            simp at h; subst h
            exact ⟨node, olr, hasD_blacken.2 (hasD_plug (by simp [HasD, Has])), rfl,
              by simp +contextual [Tree.inorder]⟩
        · simp at h; subst h
          exact ⟨node, or, hasD_blacken.2 (hasD_plug (by simp [HasD, Has])), rfl,
            by simp +contextual [Tree.inorder]⟩

theorem keeps_mono {d : Dir} {a : α} {m : List α} {sib sib2 t : Tree α}
    (hs : ∀ y ∈ sib.inorder, y ∈ sib2.inorder) (h : Keeps d a m sib t) : Keeps d a m sib2 t := by
  obtain ⟨s', sib', h1, h2, h3⟩ := h
  exact ⟨s', sib', h1, h2, fun y hy => hs y (h3 y hy)⟩

theorem eraseStep_at {node : Tree α} {d c a sib} {rest : Path α} {s : EStep α}
    (h : eraseStep node ⟨d, c, a, sib⟩ rest = some s) :
    EStep.All (Keeps d a node.inorder sib) s := by
  unfold eraseStep at h
  split at h
  · simp at h
  · rename_i ol ox or hs
    simp at hs; subst hs
    have mono : ∀ {sib' : Tree α}, (∀ y ∈ sib'.inorder, y ∈ (Tree.node .red ol ox or).inorder) →
        EStep.All (Keeps d a node.inorder sib') s →
        EStep.All (Keeps d a node.inorder (.node .red ol ox or)) s := by
      intro sib' hh h
      cases s <;> exact keeps_mono hh h
    cases d
    · exact mono (by simp +contextual [Tree.inorder]) (eraseStep2_at h)
    · exact mono (by simp +contextual [Tree.inorder]) (eraseStep2_at h)
  · exact eraseStep2_at h

theorem inorder_blacken' (t : Tree α) : t.blacken.inorder = t.inorder := by
  cases t <;> rfl

/-- Cancel the common context of two plugged subtrees. -/
theorem plug_cancel {u v : Tree α} {p : Path α}
    (h : (plug u p).inorder = (plug v p).inorder) : u.inorder = v.inorder := by
  rw [inorder_plug, inorder_plug] at h
  simpa using h

/-- Rebalancing below node `a`: `a` keeps the contents of that side and gets nothing new on the other. -/
theorem eraseFix_above {node : Tree α} {path : Path α} {t : Tree α}
    (h : eraseFix node path = some t) :
    ∀ (q : Path α) d c a sib (p : Path α), path = q ++ ⟨d, c, a, sib⟩ :: p →
    Keeps d a (plug node q).inorder sib t := by
  fun_induction eraseFix node path with
  | case1 node path hr =>
    intro q d c a sib p hp
    simp at h; subst h; subst hp
    refine ⟨plug node.blacken q, sib, ?_, ?_, fun _ h => h⟩
    · rw [plug_append]; exact hasD_plug (p := p) (hasD_fill d c a sib _)
    · simp [inorder_plug]
  | case2 node hr => intro q d c a sib p hp; simp at hp
  | case3 => simp at h
  | case4 node hr p0 rest t' hs =>
    intro q d c a sib p hp
    simp at h; subst h
    cases q with
    | nil =>
      simp at hp; obtain ⟨rfl, rfl⟩ := hp
      exact eraseStep_at hs
    | cons f q =>
      simp at hp; obtain ⟨rfl, rfl⟩ := hp
      obtain ⟨u, hu⟩ := eraseStep_shape hs
      have hi := eraseStep_inorder _ _ _ _ hs
      simp only [EStep.inorder] at hi
      rw [← inorder_plug] at hi
      subst hu
      rw [inorder_blacken', ← List.cons_append, plug_append, plug_append] at hi
      have hi := plug_cancel hi
      refine ⟨plug u q, sib, ?_, hi, fun _ h => h⟩
      rw [hasD_blacken, plug_append]; exact hasD_plug (p := p) (hasD_fill d c a sib _)
  | case5 node hr p0 rest n' p' hs ih =>
    intro q d c a sib p hp
    cases q with
    | nil =>
      simp at hp; obtain ⟨rfl, rfl⟩ := hp
      exact eraseFix_keeps (eraseStep_at hs) h
    | cons f q =>
      simp at hp; obtain ⟨rfl, rfl⟩ := hp
      obtain ⟨g, hg⟩ := eraseStep_shape hs
      have hi := eraseStep_inorder _ _ _ _ hs
      simp only [EStep.inorder] at hi
      rw [← inorder_plug, ← inorder_plug] at hi
      subst hg
      rw [← List.append_assoc, ← List.cons_append, plug_append n', plug_append node] at hi
      have hi := plug_cancel hi
      rw [← hi]
      exact ih h (g ++ q) d c a sib p (by simp)

/-- `aosl_rb_erase` below node `a`. -/
theorem eraseAt_above {c : Color} {l : Tree α} {x : α} {r : Tree α} {q : Path α} {d ca a sib}
    {p : Path α} {t : Tree α} (h : eraseAt c l x r (q ++ ⟨d, ca, a, sib⟩ :: p) = some t) :
    Keeps d a (before q ++ l.inorder ++ r.inorder ++ after q) sib t := by
  have hfix : ∀ col (child : Tree α) (q : Path α),
      eraseAt.fix col child (q ++ ⟨d, ca, a, sib⟩ :: p) = some t →
      Keeps d a (plug child q).inorder sib t := by
    intro col child q hq
    unfold eraseAt.fix at hq
    split at hq
    · exact eraseFix_above hq q d ca a sib p rfl
    · simp at hq; subst hq
      refine ⟨plug child q, sib, ?_, rfl, fun _ h => h⟩
      rw [plug_append]; exact hasD_plug (p := p) (hasD_fill d ca a sib _)
  unfold eraseAt at h
  split at h
  · have := hfix _ _ _ h; rw [inorder_plug] at this; simpa [Tree.inorder] using this
  · have := hfix _ _ _ h; rw [inorder_plug] at this; simpa [Tree.inorder] using this
  · rename_i rc rl rx rr _
    have h1 := leftmost_inorder rc rl rx rr
    have h2 := (leftmost_spec rc rl rx rr []).2
    simp only at h1 h2 h
    rw [← List.cons_append, ← List.append_assoc] at h
    have := hfix _ _ _ h
    rw [inorder_plug] at this
    rw [← h1]
    simpa [before_append, after_append, h2, before, after] using this

/-! ### following pointers -/

theorem locate_some [DecidableEq α] {x : α} {t : Tree α} {p : Path α} {q : Pos α}
    (h : locate x t p = some q) : q.elem = x ∧ plug (.node q.color q.left x q.right) q.path = plug t p := by
  induction t generalizing p with
  | nil => simp [locate] at h
  | node c l y r ihl ihr =>
    unfold locate at h
    split at h
    · simp at h; subst h; rename_i hy; subst hy; simp
    · split at h
      · rename_i q' hq
        simp at h; subst h
        exact ihl hq
      · exact ihr h

theorem locate_none [DecidableEq α] {x : α} {t : Tree α} {p : Path α}
    (h : x ∉ t.inorder) : locate x t p = none := by
  induction t generalizing p with
  | nil => rfl
  | node c l y r ihl ihr =>
    simp [Tree.inorder] at h
    unfold locate
    rw [if_neg (fun e => h.2.1 e.symm), ihl h.1, ihr h.2.2]

theorem locate_plug [DecidableEq α] {x : α} {c : Color} {l r : Tree α} :
    ∀ (p : Path α) (u : Tree α) (q : Path α), (∀ p', locate x u p' = some ⟨c, l, x, r, q ++ p'⟩) →
    x ∉ before p → x ∉ after p → ∀ p', locate x (plug u p) p' = some ⟨c, l, x, r, (q ++ p) ++ p'⟩ := by
  intro p
  induction p with
  | nil => intro u q hu _ _ p'; simpa [plug] using hu p'
  | cons f p ih =>
    intro u q hu hb ha p'
    have := ih (f.fill u) (q ++ [f]) ?_ ?_ ?_ p'
    · simpa [plug] using this
    · intro p''
      obtain ⟨d, fc, k, sib⟩ := f
      cases d
      · simp [before, after] at hb ha
        simp only [Frame.fill, locate]
        rw [if_neg (fun e => ha.1 e.symm), hu]
        simp
      · simp [before, after] at hb ha
        simp only [Frame.fill, locate]
        rw [if_neg (fun e => hb.2.2 e.symm), locate_none hb.2.1]
        simp [hu]
    · obtain ⟨d, fc, k, sib⟩ := f
      cases d <;> simp [before, after] at hb ha <;> simp [hb]
    · obtain ⟨d, fc, k, sib⟩ := f
      cases d <;> simp [before, after] at hb ha <;> simp [ha]

/-- With distinct nodes a pointer leads to one place. -/
theorem locate_at [DecidableEq α] {x : α} {c : Color} {l r : Tree α} {p : Path α}
    (h : (plug (.node c l x r) p).inorder.Nodup) :
    locate x (plug (.node c l x r) p) [] = some ⟨c, l, x, r, p⟩ := by
  have := locate_plug (x := x) (c := c) (l := l) (r := r) p (.node c l x r) [] ?_ ?_ ?_ []
  · simpa using this
  · intro p'; simp [locate]
  all_goals
    rw [inorder_plug] at h
    simp only [Tree.inorder, List.nodup_append] at h
    intro hm
  · exact h.1.2.2 x hm x (by simp) rfl
  · exact h.2.2 x (by simp) x hm rfl

end Verif.RBWalk
