import Verif.RBTree
/-! Helper notions and lemmas for the red-black tree proofs (not part of the statements). -/
namespace Verif.RBTree
variable {α : Type u}

@[simp] theorem isRed_nil : (Tree.nil : Tree α).isRed = false := rfl
@[simp] theorem isRed_red (l : Tree α) (x r) : (Tree.node .red l x r).isRed = true := rfl
@[simp] theorem isRed_black (l : Tree α) (x r) : (Tree.node .black l x r).isRed = false := rfl

/-- In-order contents. -/
def Tree.inorder : Tree α → List α
  | .nil => []
  | .node _ l x r => l.inorder ++ x :: r.inorder

/-- Elements left of the focus. -/
def before : Path α → List α
  | [] => []
  | f :: p => match f.dir with
    | .L => before p
    | .R => before p ++ f.sib.inorder ++ [f.key]

/-- Elements right of the focus. -/
def after : Path α → List α
  | [] => []
  | f :: p => match f.dir with
    | .L => f.key :: f.sib.inorder ++ after p
    | .R => after p

theorem inorder_plug (t : Tree α) (p : Path α) :
    (plug t p).inorder = before p ++ t.inorder ++ after p := by
  induction p generalizing t with
  | nil => simp [plug, before, after]
  | cons f p ih =>
    rw [plug, ih]
    obtain ⟨d, c, k, s⟩ := f
    cases d <;> simp [Frame.fill, before, after, Tree.inorder]

@[simp] theorem inorder_blacken (t : Tree α) : t.blacken.inorder = t.inorder := by
  cases t <;> rfl

@[simp] theorem inorder_redden (t : Tree α) : t.redden.inorder = t.inorder := by
  cases t <;> rfl

theorem before_append (p q : Path α) : before (p ++ q) = before q ++ before p := by
  induction p with
  | nil => simp [before]
  | cons f p ih =>
    obtain ⟨d, c, k, s⟩ := f
    cases d <;> simp [before, ih]

theorem after_append (p q : Path α) : after (p ++ q) = after p ++ after q := by
  induction p with
  | nil => simp [after]
  | cons f p ih =>
    obtain ⟨d, c, k, s⟩ := f
    cases d <;> simp [after, ih]

theorem plug_append (t : Tree α) (p q : Path α) : plug t (p ++ q) = plug (plug t p) q := by
  induction p generalizing t with
  | nil => rfl
  | cons f p ih => simp [plug, ih]

/-! ### insertion keeps the in-order sequence -/

theorem insertFix_inorder (node : Tree α) (p : Path α) (t : Tree α)
    (h : insertFix node p = some t) :
    t.inorder = before p ++ node.inorder ++ after p := by
  fun_induction insertFix node p with
  | case1 node => simp at h; subst h; simp [before, after]
  | case2 node p rest hc => simp at h; subst h; simp [inorder_plug]
  | case3 => simp at h
  | case4 node p hpc g rest hr ih =>
    rw [ih h]
    obtain ⟨d, c, k, s⟩ := g
    obtain ⟨d', c', k', s'⟩ := p
    cases d <;> cases d' <;> simp [Frame.fill, before, after, Tree.inorder]
  | case5 node p hpc g rest hr hg hp =>
    simp at h; subst h; simp [inorder_plug, before, after, hg, hp, Tree.inorder]
  | case6 => simp at h
  | case7 p hpc g rest hr hg hp c nl nx nr =>
    simp at h; subst h; simp [inorder_plug, before, after, hg, hp, Tree.inorder]
  | case8 node p hpc g rest hr hg hp =>
    simp at h; subst h; simp [inorder_plug, before, after, hg, hp, Tree.inorder]
  | case9 => simp at h
  | case10 p hpc g rest hr hg hp c nl nx nr =>
    simp at h; subst h; simp [inorder_plug, before, after, hg, hp, Tree.inorder]

/-! ### erasure fix-up keeps the in-order sequence -/

/-- Contents of an intermediate loop state. -/
def EStep.inorder : EStep α → List α
  | .cont n p => before p ++ n.inorder ++ after p
  | .done t => t.inorder

theorem eraseStep2_inorder (node : Tree α) (p : Frame α) (rest : Path α) (s : EStep α)
    (h : eraseStep2 node p rest = some s) :
    s.inorder = before (p :: rest) ++ node.inorder ++ after (p :: rest) := by
  obtain ⟨d, c, k, sib⟩ := p
  unfold eraseStep2 at h
  split at h
  · simp at h
  · rename_i oc ol ox or hs
    simp at hs; subst hs
    split at h
    · simp at h; subst h
      cases d <;> simp [EStep.inorder, Frame.fill, before, after, Tree.inorder]
    · cases d
      · simp only at h
        split at h
        · split at h
          · simp at h
          · simp at h; subst h
            simp [EStep.inorder, inorder_plug, before, after, Tree.inorder]
        · simp at h; subst h
          simp [EStep.inorder, inorder_plug, before, after, Tree.inorder]
      · simp only at h
        split at h
        · split at h
          · simp at h
          · simp at h; subst h
            simp [EStep.inorder, inorder_plug, before, after, Tree.inorder]
        · simp at h; subst h
          simp [EStep.inorder, inorder_plug, before, after, Tree.inorder]

theorem eraseStep_inorder (node : Tree α) (p : Frame α) (rest : Path α) (s : EStep α)
    (h : eraseStep node p rest = some s) :
    s.inorder = before (p :: rest) ++ node.inorder ++ after (p :: rest) := by
  obtain ⟨d, c, k, sib⟩ := p
  unfold eraseStep at h
  split at h
  · simp at h
  · rename_i ol ox or hs
    simp at hs; subst hs
    cases d
    · simp only at h
      rw [eraseStep2_inorder _ _ _ _ h]
      simp [before, after, Tree.inorder]
    · simp only at h
      rw [eraseStep2_inorder _ _ _ _ h]
      simp [before, after, Tree.inorder]
  · exact eraseStep2_inorder _ _ _ _ h

theorem eraseFix_inorder (node : Tree α) (p : Path α) (t : Tree α)
    (h : eraseFix node p = some t) :
    t.inorder = before p ++ node.inorder ++ after p := by
  fun_induction eraseFix node p with
  | case1 node path hn => simp at h; subst h; simp [inorder_plug]
  | case2 node hn => simp at h; subst h; simp [before, after]
  | case3 => simp at h
  | case4 node hn p rest t' hs =>
    simp at h; subst h
    have := eraseStep_inorder _ _ _ _ hs
    simpa [EStep.inorder] using this
  | case5 node hn p rest n' p' hs ih =>
    rw [ih h]
    have := eraseStep_inorder _ _ _ _ hs
    simpa [EStep.inorder] using this

theorem leftmost_spec (c : Color) (l : Tree α) (x : α) (r : Tree α) (p : Path α) :
    let q := leftmost c l x r p
    plug (.node q.1 .nil q.2.1 q.2.2.1) q.2.2.2 = plug (.node c l x r) p ∧
    before q.2.2.2 = before p := by
  fun_induction leftmost c l x r p with
  | case1 c x r p => simp
  | case2 c x r p lc ll lx lr ih =>
    simp only at ih ⊢
    rw [ih.1, ih.2]
    simp [plug, Frame.fill, before]

theorem rightmost_spec (c : Color) (l : Tree α) (x : α) (r : Tree α) (p : Path α) :
    let q := rightmost c l x r p
    plug (.node q.1 q.2.1 q.2.2.1 .nil) q.2.2.2 = plug (.node c l x r) p ∧
    after q.2.2.2 = after p := by
  fun_induction rightmost c l x r p with
  | case1 c l x p => simp
  | case2 c l x p rc rl rx rr ih =>
    simp only at ih ⊢
    rw [ih.1, ih.2]
    simp [plug, Frame.fill, after]

theorem leftmost_inorder (c : Color) (l : Tree α) (x : α) (r : Tree α) :
    let q := leftmost c l x r []
    q.2.1 :: (q.2.2.1.inorder ++ after q.2.2.2) = (Tree.node c l x r).inorder := by
  have h := leftmost_spec c l x r []
  simp only at h ⊢
  have h1 := congrArg Tree.inorder h.1
  rw [inorder_plug, h.2] at h1
  simpa [before, plug, Tree.inorder] using h1

theorem eraseAt_inorder (c : Color) (l : Tree α) (x : α) (r : Tree α) (p : Path α) (t : Tree α)
    (h : eraseAt c l x r p = some t) :
    t.inorder = before p ++ l.inorder ++ r.inorder ++ after p := by
  have hfix : ∀ col (child : Tree α) (q : Path α), eraseAt.fix col child q = some t →
      t.inorder = before q ++ child.inorder ++ after q := by
    intro col child q hq
    unfold eraseAt.fix at hq
    split at hq
    · exact eraseFix_inorder _ _ _ hq
    · simp at hq; subst hq; exact inorder_plug _ _
  unfold eraseAt at h
  split at h
  · rw [hfix _ _ _ h]; simp [Tree.inorder]
  · rw [hfix _ _ _ h]; simp [Tree.inorder]
  · rename_i rc rl rx rr _
    have := leftmost_inorder rc rl rx rr
    have h2 := (leftmost_spec rc rl rx rr []).2
    simp only at this h2 h
    rw [hfix _ _ _ h, ← this]
    simp [before_append, after_append, h2, before, after]

/-! ### Red-black invariant -/

/-- Every path from the root to a leaf has `n` black nodes. -/
def Bal : Tree α → Nat → Prop
  | .nil, n => n = 0
  | .node .red l _ r, n => Bal l n ∧ Bal r n
  | .node .black l _ r, n => ∃ m, n = m + 1 ∧ Bal l m ∧ Bal r m

/-- No red node has a red child. -/
def NoRR : Tree α → Prop
  | .nil => True
  | .node c l _ r => (c = .red → l.isRed = false ∧ r.isRed = false) ∧ NoRR l ∧ NoRR r

/-- Black heights on a path, for a focus of black height `n`. -/
def PBal : Path α → Nat → Prop
  | [], _ => True
  | f :: p, n => Bal f.sib n ∧ PBal p (match f.color with | .red => n | .black => n + 1)

/-- The next ancestor exists and is black. -/
def headBlack : Path α → Prop
  | [] => False
  | g :: _ => g.color = .black

/-- No red-red along the path (and the root is black). -/
def PNoRR : Path α → Prop
  | [] => True
  | f :: p => NoRR f.sib ∧ (f.color = .red → f.sib.isRed = false ∧ headBlack p) ∧ PNoRR p

theorem bal_plug {t : Tree α} {p : Path α} {n : Nat} (h1 : Bal t n) (h2 : PBal p n) :
    ∃ m, Bal (plug t p) m := by
  induction p generalizing t n with
  | nil => exact ⟨n, h1⟩
  | cons f p ih =>
    obtain ⟨d, c, k, s⟩ := f
    obtain ⟨hs, hp⟩ := h2
    cases c
    · refine ih (n := n) ?_ hp
      cases d <;> simp [Frame.fill, Bal, *] at *
    · refine ih (n := n + 1) ?_ hp
      cases d <;> simp [Frame.fill, Bal, *] at *

theorem norr_plug {t : Tree α} {p : Path α} (h1 : NoRR t) (h2 : PNoRR p)
    (h3 : t.isRed = true → p = [] ∨ headBlack p) : NoRR (plug t p) := by
  induction p generalizing t with
  | nil => exact h1
  | cons f p ih =>
    obtain ⟨d, c, k, s⟩ := f
    obtain ⟨hs, hc, hp⟩ := h2
    simp at hs hc hp
    have hcol : c = .red → t.isRed = false := by
      intro hred
      cases htr : t.isRed
      · rfl
      · rcases h3 htr with h | h
        · simp at h
        · simp [headBlack] at h; simp [h] at hred
    refine ih ?_ hp ?_
    · cases d
      · simp only [Frame.fill, NoRR]
        exact ⟨fun h => ⟨hcol h, (hc h).1⟩, h1, hs⟩
      · simp only [Frame.fill, NoRR]
        exact ⟨fun h => ⟨(hc h).1, hcol h⟩, hs, h1⟩
    · intro h
      right
      cases c
      · exact (hc rfl).2
      · cases d <;> simp [Frame.fill] at h

theorem norr_blacken {t : Tree α} (h : NoRR t) : NoRR t.blacken := by
  cases t with
  | nil => exact h
  | node c l x r => simp [Tree.blacken, NoRR] at *; exact h.2

theorem bal_blacken {t : Tree α} {n : Nat} (h : Bal t n) : ∃ m, Bal t.blacken m := by
  cases t with
  | nil => exact ⟨n, h⟩
  | node c l x r =>
    cases c
    · exact ⟨n + 1, n, rfl, h.1, h.2⟩
    · exact ⟨n, h⟩

theorem isRed_blacken (t : Tree α) : t.blacken.isRed = false := by
  cases t <;> rfl

theorem bal_blacken_of_red {t : Tree α} {n : Nat} (h : Bal t n) (hr : t.isRed = true) :
    Bal t.blacken (n + 1) := by
  cases t with
  | nil => simp at hr
  | node c l x r =>
    cases c
    · exact ⟨n, rfl, h.1, h.2⟩
    · simp at hr

/-- The red-black rules for a whole tree. -/
structure IsRB (t : Tree α) : Prop where
  root_black : t.isRed = false
  no_red_red : NoRR t
  balanced : ∃ n, Bal t n

theorem isRB_blacken {t : Tree α} {n : Nat} (h1 : NoRR t) (h2 : Bal t n) : IsRB t.blacken :=
  ⟨isRed_blacken t, norr_blacken h1, bal_blacken h2⟩

theorem red_children {α : Type u} {c : Color} {l r : Tree α} {x : α}
    (h : (Tree.node c l x r).isRed = true) : c = .red := by
  cases c <;> simp at h ⊢

theorem insertFix_rb (node : Tree α) (p : Path α) (n : Nat)
    (hr : node.isRed = true) (h1 : NoRR node) (h2 : Bal node n) (h3 : PBal p n) (h4 : PNoRR p) :
    ∃ t, insertFix node p = some t ∧ IsRB t := by
  fun_induction insertFix node p generalizing n with
  | case1 node => exact ⟨_, rfl, isRB_blacken h1 h2⟩
  | case2 node p rest hc =>
    obtain ⟨m, hm⟩ := bal_plug h2 h3
    exact ⟨_, rfl, isRB_blacken (norr_plug h1 h4 (fun _ => Or.inr hc)) hm⟩
  | case3 node p hc =>
    exact absurd ((h4.2.1 hc).2) (by simp [headBlack])
  | case4 node p hpc g rest hg ih =>
    obtain ⟨d, c, k, s⟩ := g
    obtain ⟨d', c', k', s'⟩ := p
    simp at hpc hg
    subst hpc
    obtain ⟨hs', hred, hP⟩ := h4
    have hred := hred rfl
    simp [headBlack] at hred hs'
    obtain ⟨hsr, hcb⟩ := hred
    subst hcb
    simp [PNoRR] at hP
    obtain ⟨hs, hP⟩ := hP
    simp [PBal] at h3
    obtain ⟨hb', hb, hPB⟩ := h3
    have hbl := bal_blacken_of_red hb hg
    apply ih (n + 1)
    · cases d <;> simp [Frame.fill]
    · have := norr_blacken hs
      have := isRed_blacken s
      cases d <;> cases d' <;> simp [Frame.fill, NoRR, *]
    · cases d <;> cases d' <;> simp [Frame.fill, Bal, *]
    · exact hPB
    · exact hP
  | case5 node p hpc g rest hgr hg hp =>
    obtain ⟨d, c, k, s⟩ := g
    obtain ⟨d', c', k', s'⟩ := p
    simp at hpc hg hp hgr
    subst hpc hg hp
    obtain ⟨hs', hred, hP⟩ := h4
    have hred := hred rfl
    simp [headBlack] at hred hs'
    obtain ⟨hsr, hcb⟩ := hred
    subst hcb
    simp [PNoRR] at hP
    obtain ⟨hs, hP⟩ := hP
    simp [PBal] at h3
    obtain ⟨hb', hb, hPB⟩ := h3
    have hbal : Bal (Tree.node .black node k' (.node .red s' k s)) (n+1) := by simp [Bal, *]
    have hno : NoRR (Tree.node .black node k' (.node .red s' k s)) := by simp [NoRR, *]
    obtain ⟨m, hm⟩ := bal_plug hbal hPB
    exact ⟨_, rfl, isRB_blacken (norr_plug hno hP (by simp)) hm⟩
  | case6 => simp at hr
  | case7 p hpc g rest hgr hg hp c0 nl nx nr =>
    obtain ⟨d, c, k, s⟩ := g
    obtain ⟨d', c', k', s'⟩ := p
    simp at hpc hg hp hgr
    subst hpc hg hp
    have := red_children hr
    subst this
    obtain ⟨hs', hred, hP⟩ := h4
    have hred := hred rfl
    simp [headBlack] at hred hs'
    obtain ⟨hsr, hcb⟩ := hred
    subst hcb
    simp [PNoRR] at hP
    obtain ⟨hs, hP⟩ := hP
    simp [PBal] at h3
    obtain ⟨hb', hb, hPB⟩ := h3
    simp [NoRR] at h1
    simp [Bal] at h2
    have hbal : Bal (Tree.node .black (.node .red s' k' nl) nx (.node .red nr k s)) (n+1) := by
      simp [Bal, *]
    have hno : NoRR (Tree.node .black (.node .red s' k' nl) nx (.node .red nr k s)) := by
      simp [NoRR, *]
    obtain ⟨m, hm⟩ := bal_plug hbal hPB
    exact ⟨_, rfl, isRB_blacken (norr_plug hno hP (by simp)) hm⟩
  | case8 node p hpc g rest hgr hg hp =>
    obtain ⟨d, c, k, s⟩ := g
    obtain ⟨d', c', k', s'⟩ := p
    simp at hpc hg hp hgr
    subst hpc hg hp
    obtain ⟨hs', hred, hP⟩ := h4
    have hred := hred rfl
    simp [headBlack] at hred hs'
    obtain ⟨hsr, hcb⟩ := hred
    subst hcb
    simp [PNoRR] at hP
    obtain ⟨hs, hP⟩ := hP
    simp [PBal] at h3
    obtain ⟨hb', hb, hPB⟩ := h3
    have hbal : Bal (Tree.node .black (.node .red s k s') k' node) (n+1) := by simp [Bal, *]
    have hno : NoRR (Tree.node .black (.node .red s k s') k' node) := by simp [NoRR, *]
    obtain ⟨m, hm⟩ := bal_plug hbal hPB
    exact ⟨_, rfl, isRB_blacken (norr_plug hno hP (by simp)) hm⟩
  | case9 => simp at hr
  | case10 p hpc g rest hgr hg hp c0 nl nx nr =>
    obtain ⟨d, c, k, s⟩ := g
    obtain ⟨d', c', k', s'⟩ := p
    simp at hpc hg hp hgr
    subst hpc hg hp
    have := red_children hr
    subst this
    obtain ⟨hs', hred, hP⟩ := h4
    have hred := hred rfl
    simp [headBlack] at hred hs'
    obtain ⟨hsr, hcb⟩ := hred
    subst hcb
    simp [PNoRR] at hP
    obtain ⟨hs, hP⟩ := hP
    simp [PBal] at h3
    obtain ⟨hb', hb, hPB⟩ := h3
    simp [NoRR] at h1
    simp [Bal] at h2
    have hbal : Bal (Tree.node .black (.node .red s k nl) nx (.node .red nr k' s')) (n+1) := by
      simp [Bal, *]
    have hno : NoRR (Tree.node .black (.node .red s k nl) nx (.node .red nr k' s')) := by
      simp [NoRR, *]
    obtain ⟨m, hm⟩ := bal_plug hbal hPB
    exact ⟨_, rfl, isRB_blacken (norr_plug hno hP (by simp)) hm⟩


/-! ### erase fix-up restores the invariant -/

theorem bal_zero_succ {t : Tree α} {n : Nat} (h : Bal t (n + 1)) : t ≠ .nil := by
  intro h'; subst h'; simp [Bal] at h

/-- What a loop state of the erase fix-up must satisfy: the focus is one black node short. -/
def EStep.Ok : EStep α → Prop
  | .cont n p => ∃ k, NoRR n.blacken ∧ Bal n k ∧ PBal p (k + 1) ∧ PNoRR p
  | .done t => IsRB t

theorem finish_rb {t : Tree α} {rest : Path α} {m : Nat} (h1 : NoRR t) (h2 : Bal t m)
    (h3 : PBal rest m) (h4 : PNoRR rest) (h5 : t.isRed = true → rest = [] ∨ headBlack rest) :
    IsRB (plug t rest).blacken := by
  obtain ⟨k, hk⟩ := bal_plug h2 h3
  exact isRB_blacken (norr_plug h1 h4 h5) hk

theorem eraseStep2_rb (node : Tree α) (p : Frame α) (rest : Path α) (n : Nat)
    (hnode : node.isRed = false) (hsib : p.sib.isRed = false)
    (h1 : NoRR node) (h2 : Bal node n) (h3 : PBal (p :: rest) (n + 1)) (h4 : PNoRR (p :: rest)) :
    ∃ s, eraseStep2 node p rest = some s ∧ s.Ok := by
  obtain ⟨d, c, k, sib⟩ := p
  obtain ⟨hbs, hPB⟩ := h3
  obtain ⟨hns, hred, hP⟩ := h4
  simp at hsib hbs hns hred hPB hP
  cases sib with
  | nil => simp [Bal] at hbs
  | node oc ol ox or =>
    cases oc
    · simp at hsib
    · simp [Bal] at hbs
      simp [NoRR] at hns
      simp at hred
      obtain ⟨hbl, hbr⟩ := hbs
      obtain ⟨hnl, hnr⟩ := hns
      have hfin : ∀ t : Tree α, (c = .red → t.isRed = true) → (c = .black → t.isRed = false) →
          t.isRed = true → rest = [] ∨ headBlack rest := by
        intro t ha hb' ht
        cases c
        · exact Or.inr (hred rfl)
        · simp [hb'] at ht
      unfold eraseStep2
      simp only
      by_cases hb : ol.isRed = false ∧ or.isRed = false
      · simp only [hb, Bool.not_false, Bool.and_self, if_true]
        refine ⟨_, rfl, ?_⟩
        cases c
        · refine ⟨n, ?_, ?_, hPB, hP⟩
          · cases d <;> simp [Frame.fill, NoRR, Tree.blacken, *]
          · cases d <;> simp [Frame.fill, Bal, *]
        · refine ⟨n + 1, ?_, ?_, hPB, hP⟩
          · cases d <;> simp [Frame.fill, NoRR, Tree.blacken, *]
          · cases d <;> simp [Frame.fill, Bal, *]
      · rw [if_neg (by simpa using hb)]
        cases d
        · simp only
          by_cases hr : or.isRed = false
          · rw [if_pos (by simp [hr])]
            cases ol with
            | nil => simp [hr] at hb
            | node olc oll olx olr =>
              have hlr : olc = .red := by cases olc <;> simp [hr] at hb ⊢
              subst hlr
              simp [NoRR] at hnl
              simp [Bal] at hbl
              refine ⟨_, rfl, ?_⟩
              cases c
              · refine finish_rb (m := n + 1) ?_ ?_ hPB hP (hfin _ (by simp) (by simp))
                · simp [NoRR, Tree.blacken, *]
                · simp [Bal, Tree.blacken, *]
              · refine finish_rb (m := n + 2) ?_ ?_ hPB hP (hfin _ (by simp) (by simp))
                · simp [NoRR, Tree.blacken, *]
                · simp [Bal, Tree.blacken, *]
          · rw [if_neg (by simpa using hr)]
            have hr' : or.isRed = true := by simpa using hr
            have hbr' := bal_blacken_of_red hbr hr'
            have hnr' := norr_blacken hnr
            have hor := isRed_blacken or
            refine ⟨_, rfl, ?_⟩
            cases c
            · refine finish_rb (m := n + 1) ?_ ?_ hPB hP (hfin _ (by simp) (by simp))
              · simp [NoRR, *]
              · simp [Bal, *]
            · refine finish_rb (m := n + 2) ?_ ?_ hPB hP (hfin _ (by simp) (by simp))
              · simp [NoRR, *]
              · simp [Bal, *]
        · simp only
          by_cases hl : ol.isRed = false
          · rw [if_pos (by simp [hl])]
            cases or with
            | nil => simp [hl] at hb
            | node orc orl orx orr =>
              have hrr : orc = .red := by cases orc <;> simp [hl] at hb ⊢
              subst hrr
              simp [NoRR] at hnr
              simp [Bal] at hbr
              refine ⟨_, rfl, ?_⟩
              cases c
              · refine finish_rb (m := n + 1) ?_ ?_ hPB hP (hfin _ (by simp) (by simp))
                · simp [NoRR, Tree.blacken, *]
                · simp [Bal, Tree.blacken, *]
              · refine finish_rb (m := n + 2) ?_ ?_ hPB hP (hfin _ (by simp) (by simp))
                · simp [NoRR, Tree.blacken, *]
                · simp [Bal, Tree.blacken, *]
          · rw [if_neg (by simpa using hl)]
            have hl' : ol.isRed = true := by simpa using hl
            have hbl' := bal_blacken_of_red hbl hl'
            have hnl' := norr_blacken hnl
            have hol := isRed_blacken ol
            refine ⟨_, rfl, ?_⟩
            cases c
            · refine finish_rb (m := n + 1) ?_ ?_ hPB hP (hfin _ (by simp) (by simp))
              · simp [NoRR, *]
              · simp [Bal, *]
            · refine finish_rb (m := n + 2) ?_ ?_ hPB hP (hfin _ (by simp) (by simp))
              · simp [NoRR, *]
              · simp [Bal, *]

theorem eraseStep_rb (node : Tree α) (p : Frame α) (rest : Path α) (n : Nat)
    (hnode : node.isRed = false)
    (h1 : NoRR node) (h2 : Bal node n) (h3 : PBal (p :: rest) (n + 1)) (h4 : PNoRR (p :: rest)) :
    ∃ s, eraseStep node p rest = some s ∧ s.Ok := by
  obtain ⟨d, c, k, sib⟩ := p
  cases sib with
  | nil => simp [PBal, Bal] at h3
  | node oc ol ox or =>
    cases oc
    · -- red sibling: the parent is black
      have hc : c = .black := by
        cases c
        · have := (h4.2.1 rfl).1; simp at this
        · rfl
      subst hc
      obtain ⟨⟨hbl, hbr⟩, hPB⟩ := h3
      obtain ⟨⟨hr, hnl, hnr⟩, _, hP⟩ := h4
      obtain ⟨hlr, hrr⟩ := hr rfl
      cases d
      · refine eraseStep2_rb node ⟨.L, .red, k, ol⟩ (⟨.L, .black, ox, or⟩ :: rest) n hnode hlr h1 h2 ?_ ?_
        · exact ⟨hbl, hbr, hPB⟩
        · exact ⟨hnl, fun _ => ⟨hlr, rfl⟩, hnr, by simp, hP⟩
      · refine eraseStep2_rb node ⟨.R, .red, k, or⟩ (⟨.R, .black, ox, ol⟩ :: rest) n hnode hrr h1 h2 ?_ ?_
        · exact ⟨hbr, hbl, hPB⟩
        · exact ⟨hnr, fun _ => ⟨hrr, rfl⟩, hnl, by simp, hP⟩
    · exact eraseStep2_rb node _ rest n hnode rfl h1 h2 h3 h4

theorem blacken_of_not_red {t : Tree α} (h : t.isRed = false) : t.blacken = t := by
  cases t with
  | nil => rfl
  | node c l x r => cases c <;> simp [Tree.blacken] at h ⊢

theorem isRed_plug' (q : Path α) (u : Tree α) (hq : PNoRR q) (hu : u.isRed = false ∨ headBlack q) :
    (plug u q).isRed = false := by
  induction q generalizing u with
  | nil =>
    rcases hu with hu | hu
    · exact hu
    · simp [headBlack] at hu
  | cons f q ihq =>
    obtain ⟨d, c, k, s⟩ := f
    apply ihq _ hq.2.2
    cases c
    · exact Or.inr (hq.2.1 rfl).2
    · left; cases d <;> simp [Frame.fill]

theorem isRed_plug {t : Tree α} {p : Path α} (ht : t.isRed = false) (h : PNoRR p) :
    (plug t p).isRed = false := isRed_plug' p t h (Or.inl ht)

theorem eraseFix_rb (node : Tree α) (p : Path α) (n : Nat)
    (h1 : NoRR node.blacken) (h2 : Bal node n) (h3 : PBal p (n + 1)) (h4 : PNoRR p) :
    ∃ t, eraseFix node p = some t ∧ IsRB t := by
  fun_induction eraseFix node p generalizing n with
  | case1 node path hn =>
    have hb := bal_blacken_of_red h2 hn
    exact ⟨_, rfl, isRed_plug (isRed_blacken _) h4,
      norr_plug h1 h4 (by simp [isRed_blacken]), bal_plug hb h3⟩
  | case2 node hn =>
    exact ⟨_, rfl, isRed_blacken _, h1, bal_blacken h2⟩
  | case3 node hn p rest hs =>
    have hn' : node.isRed = false := by simpa using hn
    rw [blacken_of_not_red hn'] at h1
    obtain ⟨s, hs', _⟩ := eraseStep_rb node p rest n hn' h1 h2 h3 h4
    rw [hs] at hs'; simp at hs'
  | case4 node hn p rest t' hs =>
    have hn' : node.isRed = false := by simpa using hn
    rw [blacken_of_not_red hn'] at h1
    obtain ⟨s, hs', hok⟩ := eraseStep_rb node p rest n hn' h1 h2 h3 h4
    rw [hs] at hs'; simp at hs'; subst hs'
    exact ⟨_, rfl, hok⟩
  | case5 node hn p rest n' p' hs ih =>
    have hn' : node.isRed = false := by simpa using hn
    rw [blacken_of_not_red hn'] at h1
    obtain ⟨s, hs', hok⟩ := eraseStep_rb node p rest n hn' h1 h2 h3 h4
    rw [hs] at hs'; simp at hs'; subst hs'
    obtain ⟨k, a, b, c, d⟩ := hok
    exact ih k a b c d

/-! ### decomposition of a whole tree at a position -/

theorem bal_unplug {t : Tree α} {p : Path α} {m : Nat} (h : Bal (plug t p) m) :
    ∃ n, Bal t n ∧ PBal p n := by
  induction p generalizing t with
  | nil => exact ⟨m, h, trivial⟩
  | cons f p ih =>
    obtain ⟨n, h1, h2⟩ := ih h
    obtain ⟨d, c, k, s⟩ := f
    cases c
    · cases d
      · exact ⟨n, h1.1, h1.2, h2⟩
      · exact ⟨n, h1.2, h1.1, h2⟩
    · cases d
      · obtain ⟨q, rfl, hl, hr⟩ := h1
        exact ⟨q, hl, hr, h2⟩
      · obtain ⟨q, rfl, hl, hr⟩ := h1
        exact ⟨q, hr, hl, h2⟩

theorem norr_unplug {t : Tree α} {p : Path α} (h : NoRR (plug t p)) (hr : (plug t p).isRed = false) :
    NoRR t ∧ PNoRR p ∧ (t.isRed = true → headBlack p) := by
  induction p generalizing t with
  | nil => exact ⟨h, trivial, fun h' => by simp [plug] at hr; simp [hr] at h'⟩
  | cons f p ih =>
    obtain ⟨h1, h2, h3⟩ := ih h hr
    obtain ⟨d, c, k, s⟩ := f
    cases d
    · simp only [Frame.fill, NoRR] at h1
      refine ⟨h1.2.1, ⟨h1.2.2, ?_, h2⟩, ?_⟩
      · intro hc; simp at hc; subst hc
        exact ⟨(h1.1 rfl).2, h3 (by simp [Frame.fill])⟩
      · intro ht
        cases c
        · have := (h1.1 rfl).1; simp [ht] at this
        · rfl
    · simp only [Frame.fill, NoRR] at h1
      refine ⟨h1.2.2, ⟨h1.2.1, ?_, h2⟩, ?_⟩
      · intro hc; simp at hc; subst hc
        exact ⟨(h1.1 rfl).1, h3 (by simp [Frame.fill])⟩
      · intro ht
        cases c
        · have := (h1.1 rfl).2; simp [ht] at this
        · rfl

theorem fix_rb (c : Color) (child : Tree α) (x : α) (other : Tree α) (p : Path α)
    (ho : other = .nil)
    (h : IsRB (plug (.node c child x other) p) ∨ IsRB (plug (.node c other x child) p)) :
    ∃ t, eraseAt.fix c child p = some t ∧ IsRB t := by
  subst ho
  have hh : ∃ n, NoRR child ∧ (c = .red → child.isRed = false) ∧ PNoRR p ∧
      Bal child n ∧ PBal p (match c with | .red => n | .black => n + 1) ∧
      (c = .red → headBlack p) := by
    rcases h with h | h
    · obtain ⟨hr, hn, m, hb⟩ := h
      obtain ⟨n, hb1, hb2⟩ := bal_unplug hb
      obtain ⟨hn1, hn2, hn3⟩ := norr_unplug hn hr
      cases c
      · exact ⟨n, hn1.2.1, fun _ => (hn1.1 rfl).1, hn2, hb1.1, hb2, fun _ => hn3 rfl⟩
      · obtain ⟨q, rfl, hl, _⟩ := hb1
        exact ⟨q, hn1.2.1, by simp, hn2, hl, hb2, by simp⟩
    · obtain ⟨hr, hn, m, hb⟩ := h
      obtain ⟨n, hb1, hb2⟩ := bal_unplug hb
      obtain ⟨hn1, hn2, hn3⟩ := norr_unplug hn hr
      cases c
      · exact ⟨n, hn1.2.2, fun _ => (hn1.1 rfl).2, hn2, hb1.2, hb2, fun _ => hn3 rfl⟩
      · obtain ⟨q, rfl, _, hl⟩ := hb1
        exact ⟨q, hn1.2.2, by simp, hn2, hl, hb2, by simp⟩
  obtain ⟨n, ha, hb, hc, hd, he, hf⟩ := hh
  cases c
  · have hcr := hb rfl
    exact ⟨_, rfl, isRed_plug hcr hc, norr_plug ha hc (by simp [hcr]), bal_plug hd he⟩
  · exact eraseFix_rb child p n (norr_blacken ha) hd he hc

/-- Replacing an element does not matter for colours and heights. -/
theorem isRB_swap {c : Color} {l r : Tree α} {x y : α} {p : Path α}
    (h : IsRB (plug (.node c l x r) p)) : IsRB (plug (.node c l y r) p) := by
  obtain ⟨hr, hn, m, hb⟩ := h
  obtain ⟨n, hb1, hb2⟩ := bal_unplug hb
  obtain ⟨hn1, hn2, hn3⟩ := norr_unplug hn hr
  have hb1' : Bal (.node c l y r) n := by cases c <;> exact hb1
  have hn1' : NoRR (.node c l y r) := hn1
  refine ⟨?_, norr_plug hn1' hn2 (fun h => Or.inr (hn3 (by cases c <;> simp at h ⊢))), bal_plug hb1' hb2⟩
  apply isRed_plug' _ _ hn2
  cases c
  · exact Or.inr (hn3 rfl)
  · exact Or.inl rfl

theorem eraseAt_rb (c : Color) (l : Tree α) (x : α) (r : Tree α) (p : Path α)
    (h : IsRB (plug (.node c l x r) p)) :
    ∃ t, eraseAt c l x r p = some t ∧ IsRB t := by
  unfold eraseAt
  split
  · exact fix_rb c _ x .nil p rfl (Or.inr h)
  · exact fix_rb c _ x .nil p rfl (Or.inl h)
  · rename_i rc rl rx rr _
    simp only
    have hs := leftmost_spec rc rl rx rr []
    generalize leftmost rc rl rx rr [] = q at hs
    obtain ⟨sc, sx, child, sp⟩ := q
    simp only [plug] at hs ⊢
    apply fix_rb sc child sx .nil _ rfl
    right
    rw [plug_append, hs.1]
    exact isRB_swap (x := x) (y := sx) (c := c) (l := l) (r := .node rc rl rx rr) (p := p) h

end Verif.RBTree

namespace Verif.RBTree
variable {α : Type u}

/-- The comparator is a three-way comparison of some total preorder. -/
structure Lawful (cmp : Cmp α) : Prop where
  flip : ∀ a b, cmp a b > 0 ↔ cmp b a < 0
  trans : ∀ a b c, cmp a b ≤ 0 → cmp b c ≤ 0 → cmp a c ≤ 0

theorem Lawful.gt_of_le_of_gt {cmp : Cmp α} (h : Lawful cmp) {a b c : α}
    (h1 : cmp a b ≤ 0) (h2 : cmp a c > 0) : cmp b c > 0 := by
  have h3 : cmp c a < 0 := (h.flip a c).1 h2
  rcases Int.lt_or_le 0 (cmp b c) with h4 | h4
  · exact h4
  · exfalso
    have h5 := h.trans a b c h1 h4
    omega

theorem findLinks_spec (cmp : Cmp α) (x : α) (t : Tree α) (p : Path α) :
    plug .nil (findLinks cmp x t p) = plug t p := by
  fun_induction findLinks cmp x t p with
  | case1 p => rfl
  | case2 c l y r p h ih => rw [ih]; rfl
  | case3 c l y r p h ih => rw [ih]; rfl

theorem findLinks_before (cmp : Cmp α) (hl : Lawful cmp) (x : α) (t : Tree α) (p : Path α)
    (hs : t.inorder.Pairwise (fun a b => cmp a b ≤ 0)) :
    ∃ a b, before (findLinks cmp x t p) = before p ++ a ∧ after (findLinks cmp x t p) = b ++ after p ∧
      t.inorder = a ++ b ∧ (∀ y ∈ a, cmp y x ≤ 0) ∧ (∀ y ∈ b, cmp y x > 0) := by
  fun_induction findLinks cmp x t p with
  | case1 p => exact ⟨[], [], by simp, by simp, rfl, by simp, by simp⟩
  | case2 c l y r p h ih =>
    simp only [Tree.inorder, List.pairwise_append, List.pairwise_cons] at hs
    obtain ⟨a, b, h1, h2, h3, h4, h5⟩ := ih hs.1
    refine ⟨a, b ++ y :: r.inorder, ?_, ?_, ?_, h4, ?_⟩
    · simpa [before] using h1
    · simpa [after] using h2
    · simp [Tree.inorder, h3]
    · intro z hz
      simp at hz
      rcases hz with hz | hz | hz
      · exact h5 z hz
      · subst hz; exact h
      · exact hl.gt_of_le_of_gt (hs.2.1.1 z hz) h
  | case3 c l y r p h ih =>
    simp only [Tree.inorder, List.pairwise_append, List.pairwise_cons] at hs
    obtain ⟨a, b, h1, h2, h3, h4, h5⟩ := ih hs.2.1.2
    refine ⟨l.inorder ++ y :: a, b, ?_, ?_, ?_, ?_, h5⟩
    · simpa [before] using h1
    · simpa [after] using h2
    · simp [Tree.inorder, h3]
    · intro z hz
      simp at hz
      rcases hz with hz | hz | hz
      · have := hs.2.2 z hz y (by simp)
        exact hl.trans z y x this (by omega)
      · subst hz; omega
      · exact h4 z hz

theorem findNode_some (cmp : Cmp α) (x : α) (t : Tree α) (p : Path α) (q : Pos α)
    (h : findNode cmp x t p = some q) :
    plug (.node q.color q.left q.elem q.right) q.path = plug t p ∧ cmp q.elem x = 0 := by
  fun_induction findNode cmp x t p with
  | case1 => simp at h
  | case2 c l y r p h0 => simp at h; subst h; exact ⟨rfl, h0⟩
  | case3 c l y r p h0 h1 ih => rw [(ih h).1]; exact ⟨rfl, (ih h).2⟩
  | case4 c l y r p h0 h1 ih => rw [(ih h).1]; exact ⟨rfl, (ih h).2⟩

theorem findNode_none (cmp : Cmp α) (hl : Lawful cmp) (x : α) (t : Tree α) (p : Path α)
    (hs : t.inorder.Pairwise (fun a b => cmp a b ≤ 0))
    (h : findNode cmp x t p = none) : ∀ y ∈ t.inorder, cmp y x ≠ 0 := by
  fun_induction findNode cmp x t p with
  | case1 => simp [Tree.inorder]
  | case2 => simp at h
  | case3 c l y r p h0 h1 ih =>
    simp only [Tree.inorder, List.pairwise_append, List.pairwise_cons] at hs
    intro z hz
    simp [Tree.inorder] at hz
    rcases hz with hz | hz | hz
    · exact ih hs.1 h z hz
    · subst hz; exact h0
    · have := hl.gt_of_le_of_gt (hs.2.1.1 z hz) h1
      omega
  | case4 c l y r p h0 h1 ih =>
    simp only [Tree.inorder, List.pairwise_append, List.pairwise_cons] at hs
    intro z hz
    simp [Tree.inorder] at hz
    rcases hz with hz | hz | hz
    · intro hzx
      have h2 := hs.2.2 z hz y (by simp)
      have h3 : cmp z x > 0 ∨ cmp z x ≤ 0 := by omega
      -- z ≤ y < x, so z cannot be equal to x
      have hyx : cmp y x < 0 := by omega
      have hxy : cmp x y > 0 := (hl.flip x y).2 hyx
      have hxz : cmp x z ≤ 0 := by
        rcases Int.lt_or_le 0 (cmp x z) with h5 | h5
        · have := (hl.flip x z).1 h5; omega
        · exact h5
      have := hl.trans x z y hxz h2
      omega
    · subst hz; exact h0
    · exact ih hs.2.1.2 h z hz

/-! ### iteration -/

/-- The whole tree a position lies in. -/
def Pos.whole (q : Pos α) : Tree α := plug (.node q.color q.left q.elem q.right) q.path
/-- Elements before the position. -/
def Pos.pre (q : Pos α) : List α := before q.path ++ q.left.inorder
/-- Elements after the position. -/
def Pos.post (q : Pos α) : List α := q.right.inorder ++ after q.path

theorem Pos.inorder_whole (q : Pos α) : q.whole.inorder = q.pre ++ q.elem :: q.post := by
  simp [Pos.whole, Pos.pre, Pos.post, inorder_plug, Tree.inorder]

theorem first_some (t : Tree α) (q : Pos α) (h : first t = some q) :
    q.whole = t ∧ q.pre = [] := by
  cases t with
  | nil => simp [first] at h
  | node c l x r =>
    simp [first] at h
    have hs := leftmost_spec c l x r []
    generalize leftmost c l x r [] = w at hs h
    subst h
    simp only at hs
    exact ⟨by simpa [Pos.whole, plug] using hs.1, by simp [Pos.pre, hs.2, before, Tree.inorder]⟩

theorem last_some (t : Tree α) (q : Pos α) (h : last t = some q) :
    q.whole = t ∧ q.post = [] := by
  cases t with
  | nil => simp [last] at h
  | node c l x r =>
    simp [last] at h
    have hs := rightmost_spec c l x r []
    generalize rightmost c l x r [] = w at hs h
    subst h
    simp only at hs
    exact ⟨by simpa [Pos.whole, plug] using hs.1, by simp [Pos.post, hs.2, after, Tree.inorder]⟩

theorem climbNext_spec (t : Tree α) (p : Path α) :
    (∀ q, climbNext t p = some q → q.whole = plug t p ∧ q.pre = before p ++ t.inorder) ∧
    (climbNext t p = none → after p = []) := by
  fun_induction climbNext t p with
  | case1 t => simp [after]
  | case2 t f p hd ih =>
    obtain ⟨d, c, k, s⟩ := f
    simp at hd; subst hd
    refine ⟨fun q hq => ?_, fun h => ?_⟩
    · have := ih.1 q hq
      simpa [plug, Frame.fill, before, Tree.inorder] using this
    · simpa [after] using ih.2 h
  | case3 t f p hd =>
    obtain ⟨d, c, k, s⟩ := f
    simp at hd; subst hd
    refine ⟨fun q hq => ?_, fun h => by simp at h⟩
    simp at hq; subst hq
    simp [Pos.whole, Pos.pre, plug, Frame.fill, before]

theorem climbPrev_spec (t : Tree α) (p : Path α) :
    (∀ q, climbPrev t p = some q → q.whole = plug t p ∧ q.post = t.inorder ++ after p) ∧
    (climbPrev t p = none → before p = []) := by
  fun_induction climbPrev t p with
  | case1 t => simp [before]
  | case2 t f p hd ih =>
    obtain ⟨d, c, k, s⟩ := f
    simp at hd; subst hd
    refine ⟨fun q hq => ?_, fun h => ?_⟩
    · have := ih.1 q hq
      simpa [plug, Frame.fill, after, Tree.inorder] using this
    · simpa [before] using ih.2 h
  | case3 t f p hd =>
    obtain ⟨d, c, k, s⟩ := f
    simp at hd; subst hd
    refine ⟨fun q hq => ?_, fun h => by simp at h⟩
    simp at hq; subst hq
    simp [Pos.whole, Pos.post, plug, Frame.fill, after]

theorem next_some (q q' : Pos α) (h : next q = some q') :
    q'.whole = q.whole ∧ q'.pre = q.pre ++ [q.elem] := by
  unfold next at h
  split at h
  · rename_i c l x r hr
    have hs := leftmost_spec c l x r []
    generalize leftmost c l x r [] = w at hs h
    simp at h; subst h
    simp only at hs
    constructor
    · simp only [Pos.whole, hr]
      rw [plug_append, hs.1]
      rfl
    · simp [Pos.pre, before_append, before, hs.2, Tree.inorder]
  · rename_i hr
    have := (climbNext_spec _ _).1 _ h
    refine ⟨by simpa [Pos.whole, hr] using this.1, ?_⟩
    rw [this.2]; simp [Pos.pre, Tree.inorder]

theorem next_none (q : Pos α) (h : next q = none) : q.post = [] := by
  unfold next at h
  split at h
  · simp at h
  · rename_i hr
    have := (climbNext_spec _ _).2 h
    simp [Pos.post, hr, this, Tree.inorder]

theorem prev_some (q q' : Pos α) (h : prev q = some q') :
    q'.whole = q.whole ∧ q'.post = q.elem :: q.post := by
  unfold prev at h
  split at h
  · rename_i c l x r hr
    have hs := rightmost_spec c l x r []
    generalize rightmost c l x r [] = w at hs h
    simp at h; subst h
    simp only at hs
    constructor
    · simp only [Pos.whole, hr]
      rw [plug_append, hs.1]
      rfl
    · simp [Pos.post, after_append, after, hs.2, Tree.inorder]
  · rename_i hr
    have := (climbPrev_spec _ _).1 _ h
    refine ⟨by simpa [Pos.whole, hr] using this.1, ?_⟩
    rw [this.2]; simp [Pos.post, Tree.inorder]

theorem prev_none (q : Pos α) (h : prev q = none) : q.pre = [] := by
  unfold prev at h
  split at h
  · simp at h
  · rename_i hr
    have := (climbPrev_spec _ _).2 h
    simp [Pos.pre, hr, this, Tree.inorder]

end Verif.RBTree
