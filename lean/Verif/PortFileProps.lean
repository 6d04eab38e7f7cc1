import Verif.PortFileInv

/-!
# Files on the ports: C202, C203, C204
-/

namespace Verif.PortFile

/-! ## Specification -/

/-- nothing changed -/
def Same (fs fs' : Fs) : Prop := ∀ q, get fs' q = get fs q

/-- nothing changed but at `p` -/
def Only (fs fs' : Fs) (p : Path) : Prop := ∀ q, q ≠ p → get fs' q = get fs q

def TruthMkdir (fs : Fs) (p : Path) (x : Int × Fs) : Prop :=
  (x.1 = 0 ∧ get x.2 p = some .dir ∧ Only fs x.2 p) ∨ (x.1 < 0 ∧ Same fs x.2)

/-- an empty directory, and nothing else -/
def TruthRmdir (fs : Fs) (p : Path) (x : Int × Fs) : Prop :=
  (x.1 = 0 ∧ get fs p = some .dir ∧ get x.2 p = none ∧ Only fs x.2 p) ∨ (x.1 < 0 ∧ Same fs x.2)

/-- a file is there afterwards, empty if it is new, with what it had if not -/
def TruthCreate (fs : Fs) (p : Path) (x : Int × Fs) : Prop :=
  (x.1 = 0 ∧ Only fs x.2 p ∧ ((get fs p = none ∧ get x.2 p = some (.file [])) ∨ ∃ c, get fs p = some (.file c) ∧ get x.2 p = some (.file c))) ∨
  (x.1 < 0 ∧ Same fs x.2)

def TruthDelete (fs : Fs) (p : Path) (x : Int × Fs) : Prop :=
  (x.1 = 0 ∧ get fs p ≠ none ∧ get x.2 p = none ∧ Only fs x.2 p) ∨ (x.1 < 0 ∧ Same fs x.2)

/-- whatever was at and below `a` is at and below `b`; the rest stays -/
def TruthRename (fs : Fs) (a b : Path) (x : Int × Fs) : Prop :=
  (x.1 = 0 ∧ get fs a ≠ none ∧ ((a = b ∧ Same fs x.2) ∨
    (a ≠ b ∧ ∀ q, get x.2 q = if b <+: q then get fs (a ++ q.drop b.length) else if a <+: q then none else get fs q))) ∨
  (x.1 < 0 ∧ Same fs x.2)

def TruthExist (fs : Fs) (p : Path) (r : Int) : Prop := r ≠ 0 ↔ get fs p ≠ none

/-- the size of a file an `int` can count -/
def TruthSize (fs : Fs) (p : Path) (r : Int) : Prop :=
  (∀ c, get fs p = some (.file c) → c.length < 2 ^ 31 → r = c.length) ∧ (get fs p = none → r < 0)

/-- The claim C202 for one port: after every history, for every path, whatever the platform does. -/
structure Truthful (p : Port) : Prop where
  mkdir : ∀ ok fs s, Wf fs → TruthMkdir fs (comps s) (mkdir p ok fs s)
  rmdir : ∀ ok fs s, Wf fs → ∃ fuel x, rmdir p ok fuel fs s = some x ∧ TruthRmdir fs (comps s) x
  create : ∀ ok fs s, Wf fs → TruthCreate fs (comps s) (fileCreate p ok fs s)
  delete : ∀ ok fs s, Wf fs → TruthDelete fs (comps s) (fileDelete p ok fs s)
  rename : ∀ ok fs a b, Wf fs → TruthRename fs (comps a) (comps b) (fileRename p ok fs a b)
  exist : ∀ fs s, Wf fs → TruthExist fs (comps s) (fexist p fs s)
  size : ∀ fs s, Wf fs → TruthSize fs (comps s) (fsize p fs s)

/-! ## The calls below -/

theorem same_refl (fs : Fs) : Same fs fs := fun _ => rfl

theorem m1 : (-1 : Int) < 0 := by decide

theorem mkdir_truth (ok : Bool) (fs : Fs) (p : Path) : TruthMkdir fs p (ans (sysMkdir ok fs p)) := by
  unfold sysMkdir
  split
  · rename_i h
    have hp : p ≠ [] := by rintro rfl; simp [get_nil] at h
    refine Or.inl ⟨rfl, ?_, ?_⟩
    · simp only [ans]; rw [get_put _ _ _ _ hp, if_pos rfl]
    · intro q hq; simp only [ans]; rw [get_put _ _ _ _ hp, if_neg hq]
  · exact Or.inr ⟨m1, same_refl fs⟩

theorem rmdir_truth (ok : Bool) (fs : Fs) (p : Path) : TruthRmdir fs p (ans (sysRmdir ok fs p)) := by
  unfold sysRmdir
  split
  · rename_i h
    refine Or.inl ⟨rfl, h.2.2.1, ?_, ?_⟩
    · simp only [ans]; rw [get_del _ _ _ h.2.1, if_pos rfl]
    · intro q hq; simp only [ans]; rw [get_del _ _ _ h.2.1, if_neg hq]
  · exact Or.inr ⟨m1, same_refl fs⟩

theorem unlink_truth (dirs ok : Bool) (fs : Fs) (p : Path) : TruthDelete fs p (ans (sysUnlink dirs ok fs p)) := by
  unfold sysUnlink
  split
  · exact Or.inr ⟨m1, same_refl fs⟩
  split
  · exact Or.inr ⟨m1, same_refl fs⟩
  · rename_i c hc
    have hp : p ≠ [] := by rintro rfl; simp [get_nil] at hc
    refine Or.inl ⟨rfl, by simp [hc], ?_, ?_⟩
    · simp only [ans]; rw [get_del _ _ _ hp, if_pos rfl]
    · intro q hq; simp only [ans]; rw [get_del _ _ _ hp, if_neg hq]
  · rename_i hc
    split
    · rcases rmdir_truth ok fs p with h | h
      · exact Or.inl ⟨h.1, by simp [hc], h.2.2.1, h.2.2.2⟩
      · exact Or.inr h
    · exact Or.inr ⟨m1, same_refl fs⟩

theorem free_below {fs : Fs} (w : Wf fs) {repl : Bool} {n : Node} {b : Path} (hb0 : b ≠ []) (h : freeFor repl fs n b = true) : ∀ e ∈ fs, b <+: e.1 → e.1 = b := by
  unfold freeFor at h
  cases hb : get fs b with
  | none => intro e he hp; exact absurd hp (below_none w hb e he)
  | some m =>
    cases m with
    | file c => exact below_file w hb
    | dir =>
      rw [hb] at h
      simp at h
      exact below_empty w hb0 h.2

theorem rename_truth (repl ok : Bool) (fs : Fs) (w : Wf fs) (a b : Path) : TruthRename fs a b (ans (sysRename repl ok fs a b)) := by
  unfold sysRename
  split
  · exact Or.inr ⟨m1, same_refl fs⟩
  rename_i h0
  simp only [not_or] at h0
  split
  · exact Or.inr ⟨m1, same_refl fs⟩
  rename_i n hn
  split
  · rename_i hab; exact Or.inl ⟨rfl, by simp [hn], Or.inl ⟨hab, same_refl fs⟩⟩
  rename_i hne
  split
  · exact Or.inr ⟨m1, same_refl fs⟩
  rename_i h1
  simp only [not_or] at h1
  split
  · exact Or.inr ⟨m1, same_refl fs⟩
  · rename_i hf
    refine Or.inl ⟨rfl, by simp [hn], Or.inr ⟨hne, ?_⟩⟩
    intro q
    exact get_moved h0.2.1 h0.2.2 h1.1 (free_below w h0.2.2 (by simpa using hf)) q

theorem open_app_truth (ok : Bool) (fs : Fs) (p : Path) (m : Mode) (hm : m.create = true) (ht : m.trunc = false) :
    TruthCreate fs p (if (sysOpen ok fs p m).1.isSome then 0 else -1, (sysOpen ok fs p m).2) := by
  unfold sysOpen
  split
  · exact Or.inr ⟨m1, same_refl fs⟩
  cases hg : get fs p with
  | some n =>
    cases n with
    | dir => dsimp only; exact Or.inr ⟨m1, same_refl fs⟩
    | file c =>
      refine Or.inl ⟨by simp, ?_, Or.inr ⟨c, hg, ?_⟩⟩
      · simp only [ht]; intro q _; rfl
      · simp only [ht]; exact hg
  | none =>
    have hp : p ≠ [] := by rintro rfl; simp [get_nil] at hg
    simp only
    split
    · refine Or.inl ⟨by simp, ?_, Or.inl ⟨hg, ?_⟩⟩
      · intro q hq; simp only; rw [get_put _ _ _ _ hp, if_neg hq]
      · simp only; rw [get_put _ _ _ _ hp, if_pos rfl]
    · exact Or.inr ⟨m1, same_refl fs⟩

theorem toInt_small (n : Nat) (h : n < 2 ^ 31) : toInt n = n := by
  unfold toInt; rw [Nat.mod_eq_of_lt (by omega), if_pos h]

/-! ## The tree stays a tree -/

theorem wf_mkdir {fs : Fs} (w : Wf fs) (ok : Bool) (p : Path) (hp : ∀ x ∈ p, x ≠ [] ∧ 47 ∉ x) : Wf (sysMkdir ok fs p).2 := by
  unfold sysMkdir
  split
  · rename_i h
    have hn : p ≠ [] := by rintro rfl; simp [get_nil] at h
    exact wf_put w hn hp h.2.2 (Or.inl rfl)
  · exact w

theorem wf_rmdir {fs : Fs} (w : Wf fs) (ok : Bool) (p : Path) : Wf (sysRmdir ok fs p).2 := by
  unfold sysRmdir
  split
  · rename_i h; exact wf_del w h.2.1 (Or.inr h.2.2.2)
  · exact w

theorem wf_unlink {fs : Fs} (w : Wf fs) (dirs ok : Bool) (p : Path) : Wf (sysUnlink dirs ok fs p).2 := by
  unfold sysUnlink
  split
  · exact w
  split
  · exact w
  · rename_i c hc
    exact wf_del w (by rintro rfl; simp [get_nil] at hc) (Or.inl ⟨c, hc⟩)
  · split
    · exact wf_rmdir w ok p
    · exact w

theorem wf_open {fs : Fs} (w : Wf fs) (ok : Bool) (p : Path) (m : Mode) (hp : ∀ x ∈ p, x ≠ [] ∧ 47 ∉ x) : Wf (sysOpen ok fs p m).2 := by
  unfold sysOpen
  split
  · exact w
  cases hg : get fs p with
  | some n =>
    cases n with
    | dir => exact w
    | file c =>
      have hn : p ≠ [] := by rintro rfl; simp [get_nil] at hg
      simp only
      split
      · refine wf_put w hn hp ?_ (Or.inr (by simp [hg]))
        exact w.par _ (get_some_mem hn hg)
      · exact w
  | none =>
    simp only
    split
    · rename_i h
      have hn : p ≠ [] := by rintro rfl; simp [get_nil] at hg
      exact wf_put w hn hp h.2 (Or.inr (by simp [hg]))
    · exact w

theorem wf_rename {fs : Fs} (w : Wf fs) (repl ok : Bool) (a b : Path) (hbn : ∀ x ∈ b, x ≠ [] ∧ 47 ∉ x) : Wf (sysRename repl ok fs a b).2 := by
  unfold sysRename
  split
  · exact w
  rename_i h0
  simp only [not_or] at h0
  split
  · exact w
  rename_i n hn
  split
  · exact w
  split
  · exact w
  rename_i h1
  simp only [not_or, Decidable.not_not] at h1
  split
  · exact w
  · rename_i hf
    exact wf_moved w h0.2.1 h0.2.2 h1.1 (free_below w h0.2.2 (by simpa using hf)) hbn h1.2

theorem wf_xrLoop (rec : Fs → Str → Option (Int × Fs)) (hrec : ∀ fs s x, Wf fs → rec fs s = some x → Wf x.2) (ok : Path → Bool) (s : Str) :
    ∀ (l : List (Str × Bool)) (fs : Fs) (x : Bool × Fs), Wf fs → xrLoop rec ok s l fs = some x → Wf x.2 := by
  intro l
  induction l with
  | nil => intro fs x w h; simp [xrLoop] at h; subst h; exact w
  | cons c l ih =>
    intro fs x w h
    obtain ⟨n, b⟩ := c
    simp only [xrLoop] at h
    split at h
    · split at h
      · simp at h
      · rename_i r fs1 hr
        split at h
        · injection h with h; subst h; exact hrec _ _ _ w hr
        · exact ih _ _ (hrec _ _ _ w hr) h
    · split at h
      · exact ih _ _ (wf_unlink w _ _ _) h
      · injection h with h; subst h; exact wf_unlink w _ _ _

theorem wf_xrRmdir (ok : Path → Bool) : ∀ (fuel : Nat) (fs : Fs) (s : Str) (x : Int × Fs), Wf fs → xrRmdir ok fuel fs s = some x → Wf x.2 := by
  intro fuel
  induction fuel with
  | zero => intro fs s x _ h; simp [xrRmdir] at h
  | succ f ih =>
    intro fs s x w h
    simp only [xrRmdir] at h
    split at h
    · injection h with h; subst h; exact w
    · split at h
      · simp at h
      · rename_i fs1 hl
        injection h with h; subst h
        exact wf_xrLoop _ ih ok s _ _ _ w hl
      · rename_i fs1 hl
        injection h with h; subst h
        exact wf_unlink (wf_xrLoop _ ih ok s _ _ _ w hl) _ _ _

/-- a file's contents change -/
theorem wf_content {fs : Fs} (w : Wf fs) {p : Path} {c : List Nat} (c' : List Nat) (h : get fs p = some (.file c)) : Wf (put fs p (.file c')) := by
  have hp : p ≠ [] := by rintro rfl; simp [get_nil] at h
  have hm := get_some_mem hp h
  exact wf_put w hp (w.nm _ hm) (w.par _ hm) (Or.inr (by simp [h]))

theorem acSplit_comps (s a b : Str) (h : acSplit s = some (a, b)) : comps a ++ comps b = comps s := by
  unfold acSplit at h
  split at h
  · simp at h
  dsimp only at h
  have hclean : comps (if s.length > 1 ∧ s.getLast? = some 47 then s.dropLast else s) = comps s := by
    split
    · rename_i h1
      have hne : s ≠ [] := by rintro rfl; simp at h1
      have hl := h1.2
      rw [List.getLast?_eq_some_getLast hne] at hl
      injection hl with hl
      have : s = s.dropLast ++ 47 :: [] := by rw [← hl, List.dropLast_concat_getLast]
      conv => rhs; rw [this]
      rw [comps_append]; simp [comps, splitGo]
    · rfl
  revert h hclean
  generalize (if s.length > 1 ∧ s.getLast? = some 47 then s.dropLast else s) = clean
  intro h hclean
  have hdec : clean = (clean.reverse.dropWhile (· != 47)).reverse ++ (clean.reverse.takeWhile (· != 47)).reverse := by
    rw [← List.reverse_append, List.takeWhile_append_dropWhile, List.reverse_reverse]
  revert h hdec
  generalize hname : (clean.reverse.takeWhile (· != 47)).reverse = name
  intro h hdec
  split at h
  · injection h with h
    obtain ⟨rfl, rfl⟩ := Prod.mk.inj h
    rw [← hclean]; simp [comps, splitGo]
  · rename_i hlen
    injection h with h
    obtain ⟨ha, rfl⟩ := Prod.mk.inj h
    have hdw : ∃ t, clean.reverse.dropWhile (· != 47) = 47 :: t := by
      cases hd : clean.reverse.dropWhile (· != 47) with
      | nil =>
        rw [hd] at hdec
        simp at hdec
        rw [hdec] at hlen; simp at hlen
      | cons y t =>
        refine ⟨t, ?_⟩
        have := List.head?_dropWhile_not (fun x : Nat => x != 47) clean.reverse
        rw [hd] at this
        simp at this
        rw [this]
    obtain ⟨t, ht⟩ := hdw
    rw [ht] at hdec
    have hc : clean = t.reverse ++ 47 :: name := by rw [hdec]; simp
    have htake : clean.take (clean.length - name.length - 1) = t.reverse := by
      rw [hc]
      have : (t.reverse ++ 47 :: name).length - name.length - 1 = t.reverse.length := by simp; omega
      rw [this, List.take_left]
    rw [htake] at ha
    rw [← hclean, hc, comps_append]
    have h47 : comps (47 :: name) = comps name := by simp [comps, splitGo]
    rw [h47]
    congr 1
    rw [← ha]
    split
    · rename_i h0; rw [h0]; simp [comps, splitGo]
    · rfl

/-- C202, the histories: on every port every call leaves a tree, so that what is said of all trees is said of all histories. -/
theorem C202_tree (p : Port) (ok : Bool) (fs : Fs) (w : Wf fs) :
    (∀ s, Wf (mkdir p ok fs s).2) ∧ (∀ fuel s x, rmdir p ok fuel fs s = some x → Wf x.2) ∧ (∀ s, Wf (fileCreate p ok fs s).2) ∧
    (∀ s, Wf (fileDelete p ok fs s).2) ∧ (∀ a b, Wf (fileRename p ok fs a b).2) ∧ (∀ s m, Wf (fopen p ok fs s m).2) ∧
    (∀ h data room, Wf (fwrite p fs h data room).2.2) ∧ (∀ h lost, Wf (fclose p ok lost fs h).2) := by
  refine ⟨?_, ?_, ?_, ?_, ?_, ?_, ?_, ?_⟩
  · intro s
    unfold mkdir
    split
    · exact w
    · unfold halMkdir
      cases p
      case ac791n =>
        dsimp only
        split
        · exact w
        · rename_i a b h
          refine wf_mkdir w ok _ ?_
          intro x hx
          rw [List.mem_append] at hx
          rcases hx with hx | hx <;> exact comps_nm _ x hx
      case xr872 =>
        dsimp only
        split
        · exact w
        · exact wf_mkdir w ok _ (comps_nm s)
      case tw82x => exact w
      case stub => exact w
      all_goals exact wf_mkdir w ok _ (comps_nm s)
  · intro fuel s x h
    unfold rmdir at h
    cases p <;> dsimp only at h
    case xr872 => exact wf_xrRmdir _ _ _ _ _ w h
    case ac791n =>
      split at h
      · injection h with h; subst h; exact w
      · injection h with h; subst h; exact wf_rmdir w _ _
    case asr1606 => injection h with h; subst h; exact wf_unlink w _ _ _
    case tw82x => injection h with h; subst h; exact w
    case stub => injection h with h; subst h; exact w
    all_goals (injection h with h; subst h; exact wf_rmdir w _ _)
  · intro s
    unfold fileCreate
    cases p <;> dsimp only
    case tw82x => exact w
    case stub => exact w
    all_goals exact wf_open w _ _ _ (comps_nm s)
  · intro s
    unfold fileDelete
    cases p <;> dsimp only
    case tw82x => exact w
    case stub => exact w
    all_goals exact wf_unlink w _ _ _
  · intro a b
    unfold fileRename
    cases p <;> dsimp only
    case tw82x => exact w
    case stub => exact w
    case ac791n =>
      split
      · rename_i c hc
        refine wf_rename w _ _ _ _ ?_
        intro x hx
        rw [List.mem_append] at hx
        rcases hx with hx | hx
        · exact comps_nm a x ((List.dropLast_sublist _).subset hx)
        · exact comps_nm _ x hx
      · exact w
    all_goals exact wf_rename w _ _ _ _ (comps_nm b)
  · intro s m
    unfold fopen
    cases p <;> dsimp only
    case stub => exact w
    case xr872 => exact wf_open w _ _ _ (comps_nm s)
    all_goals
      split
      · exact w
      · exact wf_open w _ _ _ (comps_nm s)
  · intro h data room
    unfold fwrite
    split
    · exact w
    · split
      · dsimp only [sysWrite]
        split
        · rename_i c hc; exact wf_content w _ hc
        · exact w
      · exact w
  · intro h lost
    unfold fclose
    split
    · exact w
    · split
      · exact w
      · dsimp only
        split
        · rename_i c hc
          split
          · exact wf_content w _ hc
          · exact w
        · exact w

/-! ## C202 -/

/-- C202 on linux, darwin, harmony and windows: every call, after every history, is truthful — but a mkdir where a file is. -/
theorem C202_posix_partial (p : Port) (hp : p = .posix ∨ p = .windows) (ok : Bool) (fs : Fs) (w : Wf fs) (s t : Str) :
    ((∀ c, get fs (comps s) ≠ some (.file c)) → TruthMkdir fs (comps s) (mkdir p ok fs s)) ∧
    (∀ fuel, ∃ x, rmdir p ok fuel fs s = some x ∧ TruthRmdir fs (comps s) x) ∧
    TruthCreate fs (comps s) (fileCreate p ok fs s) ∧ TruthDelete fs (comps s) (fileDelete p ok fs s) ∧
    TruthRename fs (comps s) (comps t) (fileRename p ok fs s t) ∧ TruthExist fs (comps s) (fexist p fs s) ∧ TruthSize fs (comps s) (fsize p fs s) := by
  have hex : fexist p fs s = if (get fs (comps s)).isSome then 1 else 0 := by rcases hp with rfl | rfl <;> rfl
  refine ⟨?_, ?_, ?_, ?_, ?_, ?_, ?_⟩
  · intro hf
    unfold mkdir
    rw [hex]
    cases hg : get fs (comps s) with
    | none =>
      rw [if_neg (by simp)]
      rcases hp with rfl | rfl <;> exact mkdir_truth ok fs _
    | some n =>
      cases n with
      | file c => exact absurd hg (hf c)
      | dir => rw [if_pos (by simp)]; exact Or.inl ⟨rfl, hg, fun q _ => rfl⟩
  · intro fuel
    rcases hp with rfl | rfl <;> exact ⟨_, rfl, rmdir_truth ok fs _⟩
  · rcases hp with rfl | rfl <;> exact open_app_truth ok fs _ _ rfl rfl
  · rcases hp with rfl | rfl <;> exact unlink_truth _ ok fs _
  · rcases hp with rfl | rfl <;> exact rename_truth _ ok fs w _ _
  · unfold TruthExist
    rw [hex]
    cases get fs (comps s) <;> simp
  · refine ⟨?_, ?_⟩
    · intro c hc hl
      rcases hp with rfl | rfl <;> simp only [fsize, hc] <;> exact toInt_small _ hl
    · intro hn
      rcases hp with rfl | rfl <;> simp only [fsize, hn] <;> decide

/-- C202 on asr1606: the same, but for a rmdir of a file. -/
theorem C202_asr_partial (ok : Bool) (fs : Fs) (s : Str) (hf : ∀ c, get fs (comps s) ≠ some (.file c)) :
    TruthMkdir fs (comps s) (mkdir .asr1606 ok fs s) ∧ (∀ fuel, ∃ x, rmdir .asr1606 ok fuel fs s = some x ∧ TruthRmdir fs (comps s) x) := by
  refine ⟨?_, ?_⟩
  · unfold mkdir fexist
    dsimp only
    cases hg : get fs (comps s) with
    | none => rw [if_neg (by simp)]; exact mkdir_truth ok fs _
    | some n =>
      cases n with
      | file c => exact absurd hg (hf c)
      | dir => rw [if_pos (by simp)]; exact Or.inl ⟨rfl, hg, fun q _ => rfl⟩
  · intro fuel
    refine ⟨_, rfl, ?_⟩
    rcases unlink_truth true ok fs (comps s) with h | h
    · refine Or.inl ⟨h.1, ?_, h.2.2⟩
      cases hg : get fs (comps s) with
      | none => exact absurd hg h.2.1
      | some n =>
        cases n with
        | file c => exact absurd hg (hf c)
        | dir => rfl
    · exact Or.inr h

theorem C202_asr_files (ok : Bool) (fs : Fs) (w : Wf fs) (s t : Str) :
    TruthCreate fs (comps s) (fileCreate .asr1606 ok fs s) ∧ TruthDelete fs (comps s) (fileDelete .asr1606 ok fs s) ∧
    TruthRename fs (comps s) (comps t) (fileRename .asr1606 ok fs s t) ∧ TruthExist fs (comps s) (fexist .asr1606 fs s) ∧
    TruthSize fs (comps s) (fsize .asr1606 fs s) := by
  refine ⟨open_app_truth ok fs _ _ rfl rfl, unlink_truth _ ok fs _, rename_truth _ ok fs w _ _, ?_, ?_, ?_⟩
  · unfold TruthExist fexist
    cases get fs (comps s) <;> simp
  · intro c hc hl; simp only [fsize, hc]; exact toInt_small _ hl
  · intro hn; simp only [fsize, hn]; decide

/-- Violated on asr1606: aosl_rmdir of a file deletes the file and answers 0. -/
theorem C202_asr_rmdir_file (fs : Fs) (s : Str) (c : List Nat) (fuel : Nat) (h : get fs (comps s) = some (.file c)) :
    ∃ fs', rmdir .asr1606 true fuel fs s = some (0, fs') ∧ get fs' (comps s) = none := by
  have hp : comps s ≠ [] := by intro h0; rw [h0, get_nil] at h; simp at h
  refine ⟨del fs (comps s), by simp [rmdir, sysUnlink, h, ans], ?_⟩
  rw [get_del _ _ _ hp, if_pos rfl]

/-- Violated on all ports with a file system: aosl_mkdir where a file is answers 0, and there is no directory (on xr872 too). -/
theorem C202_mkdir_file (p : Port) (ok : Bool) (fs : Fs) (s : Str) (c : List Nat) (h : get fs (comps s) = some (.file c)) :
    mkdir p ok fs s = (0, fs) := by
  cases p <;> simp [mkdir, fexist, halMkdir, h]

/-- C202 on ac791n: mkdir (the path taken apart and put together again), delete, existence and size; rename within a directory. -/
theorem C202_ac_partial (ok : Bool) (fs : Fs) (w : Wf fs) (s t : Str) :
    (s ≠ [] → (∀ c, get fs (comps s) ≠ some (.file c)) → TruthMkdir fs (comps s) (mkdir .ac791n ok fs s)) ∧
    (∀ fuel, ∃ x, rmdir .ac791n ok fuel fs s = some x ∧ TruthRmdir fs (comps s) x) ∧
    TruthDelete fs (comps s) (fileDelete .ac791n ok fs s) ∧ TruthExist fs (comps s) (fexist .ac791n fs s) ∧ TruthSize fs (comps s) (fsize .ac791n fs s) ∧
    ((comps s).dropLast ++ comps ((t.reverse.takeWhile (· != 47)).reverse) = comps t → TruthRename fs (comps s) (comps t) (fileRename .ac791n ok fs s t)) := by
  refine ⟨?_, ?_, unlink_truth _ ok fs _, ?_, ⟨?_, ?_⟩, ?_⟩
  · intro hs hf
    unfold mkdir fexist
    dsimp only
    cases hg : get fs (comps s) with
    | none =>
      rw [if_neg (by simp)]
      unfold halMkdir
      dsimp only
      cases ha : acSplit s with
      | none => exact Or.inr ⟨m1, same_refl fs⟩
      | some x =>
        obtain ⟨a, b⟩ := x
        dsimp only
        rw [acSplit_comps s a b ha]
        exact mkdir_truth ok fs _
    | some n =>
      cases n with
      | file c => exact absurd hg (hf c)
      | dir => rw [if_pos (by simp)]; exact Or.inl ⟨rfl, hg, fun q _ => rfl⟩
  · intro fuel
    unfold rmdir
    dsimp only
    by_cases hs : s = []
    · rw [if_pos hs]; exact ⟨_, rfl, Or.inr ⟨m1, same_refl fs⟩⟩
    · rw [if_neg hs]
      refine ⟨_, rfl, ?_⟩
      have : comps (acRmArg s) = comps s := by
        unfold acRmArg
        split
        · rename_i hl
          rw [List.getLast?_eq_some_getLast hs] at hl
          injection hl with hl
          have : s = s.dropLast ++ 47 :: [] := by rw [← hl, List.dropLast_concat_getLast]
          conv => rhs; rw [this]
          rw [comps_append]; simp [comps, splitGo]
        · rfl
      rw [this]
      exact rmdir_truth ok fs _
  · unfold TruthExist fexist
    cases get fs (comps s) <;> simp
  · intro c hc hl; simp only [fsize, hc]; exact toInt_small _ hl
  · intro hn; simp only [fsize, hn]; decide
  · intro ht
    unfold fileRename
    dsimp only
    split
    · rw [ht]; exact rename_truth _ ok fs w _ _
    · exact Or.inr ⟨m1, same_refl fs⟩

/-- Violated on ac791n: a rename never leaves the old directory: with the answer 0 nothing outside it has changed, so a move to another directory did not happen. -/
theorem C202_ac_rename_stays (ok : Bool) (fs : Fs) (w : Wf fs) (s t : Str) (q : Path) (hq : ¬ (comps s).dropLast <+: q) :
    get (fileRename .ac791n ok fs s t).2 q = get fs q := by
  unfold fileRename
  dsimp only
  split
  · rename_i c hc
    rcases rename_truth false ok fs w (comps s) ((comps s).dropLast ++ comps ((t.reverse.takeWhile (· != 47)).reverse)) with ⟨_, _, h | h⟩ | h
    · exact h.2 q
    · rw [h.2 q, if_neg, if_neg]
      · intro h'; exact hq ((List.dropLast_prefix _).trans h')
      · intro h'; exact hq ((List.prefix_append _ _).trans h')
    · exact h.2 q
  · rfl

/-- On ac791n and xr872 aosl_file_create empties a file that is there. -/
theorem C202_create_empties (p : Port) (hp : p = .ac791n ∨ p = .xr872) (fs : Fs) (s : Str) (c : List Nat) (h : get fs (comps s) = some (.file c)) :
    ∃ fs', fileCreate p true fs s = (0, fs') ∧ get fs' (comps s) = some (.file []) := by
  have hn : comps s ≠ [] := by intro h0; rw [h0, get_nil] at h; simp at h
  rcases hp with rfl | rfl <;>
    exact ⟨put fs (comps s) (.file []), by simp [fileCreate, sysOpen, h], by rw [get_put _ _ _ _ hn, if_pos rfl]⟩

/-- Violated on xr872, for every path: aosl_fexist answers 0 if something is there and not 0 if nothing is. -/
theorem C202_xr_exist_inverted (fs : Fs) (s : Str) : fexist .xr872 fs s = 0 ↔ get fs (comps s) ≠ none := by
  unfold fexist
  dsimp only
  cases get fs (comps s) <;> simp

/-- Violated on xr872, for every path: aosl_mkdir answers 0 and creates nothing. -/
theorem C202_xr_mkdir_never (ok : Bool) (fs : Fs) (s : Str) : mkdir .xr872 ok fs s = (0, fs) := by
  unfold mkdir
  cases hg : get fs (comps s) with
  | none => simp [fexist, hg]
  | some n => simp [fexist, halMkdir, hg]

/-- What holds on xr872: delete, rename, size. -/
theorem C202_xr_partial (ok : Bool) (fs : Fs) (w : Wf fs) (s t : Str) :
    TruthDelete fs (comps s) (fileDelete .xr872 ok fs s) ∧ TruthRename fs (comps s) (comps t) (fileRename .xr872 ok fs s t) ∧ TruthSize fs (comps s) (fsize .xr872 fs s) := by
  refine ⟨unlink_truth _ ok fs _, rename_truth _ ok fs w _ _, ?_, ?_⟩
  · intro c hc hl; simp only [fsize, hc]; exact toInt_small _ hl
  · intro hn; simp only [fsize, hn]; decide

/-- Violated on tw82x and the ports of stubs: every call answers 0 and does nothing. -/
theorem C202_stub_nothing (p : Port) (hp : p = .tw82x ∨ p = .stub) (ok : Bool) (fuel : Nat) (fs : Fs) (s t : Str) :
    mkdir p ok fs s = (0, fs) ∧ rmdir p ok fuel fs s = some (0, fs) ∧ fileCreate p ok fs s = (0, fs) ∧ fileDelete p ok fs s = (0, fs) ∧
    fileRename p ok fs s t = (0, fs) ∧ fexist p fs s = 0 ∧ fsize p fs s = 0 := by
  rcases hp with rfl | rfl <;> simp [mkdir, rmdir, fileCreate, fileDelete, fileRename, fexist, fsize, halMkdir]

/-- a tree for the examples: /d, /d/f with two bytes, /g -/
def fs0 : Fs := [([[100]], .dir), ([[100], [102]], .file [1, 2]), ([[103]], .file [3])]

theorem wf0 : Wf fs0 := ⟨by decide, by decide, by decide, by decide⟩

/-- No port keeps the claim. -/
theorem C202_violated (p : Port) : ¬ Truthful p := by
  intro h
  have hm := h.mkdir true fs0 [103] wf0
  rw [C202_mkdir_file p true fs0 [103] [3] (by decide)] at hm
  rcases hm with h1 | h1
  · exact absurd h1.2.1 (by decide)
  · exact absurd h1.1 (by decide)

-- non-trivial cases: a directory is made, a full one is not removed, a file moves; /d/f renamed to /x on ac791n stays in /d
example : mkdir .posix true fs0 [47, 100, 47, 97] = (0, ([[100], [97]], .dir) :: fs0) := by decide
example : rmdir .posix true 0 fs0 [47, 100] = some (-1, fs0) := by decide
example : (fileRename .posix true fs0 [100] [101]) = (0, [([[101]], .dir), ([[101], [102]], .file [1, 2]), ([[103]], .file [3])]) := by decide
example : (fileRename .ac791n true fs0 [100, 47, 102] [47, 120]).1 = 0 ∧ get (fileRename .ac791n true fs0 [100, 47, 102] [47, 120]).2 [[120]] = none ∧
    get (fileRename .ac791n true fs0 [100, 47, 102] [47, 120]).2 [[100], [120]] = some (.file [1, 2]) := by decide
example : acSplit [47, 100, 47, 97, 47] = some ([47, 100], [47, 97]) := by decide

/-! ## C203: what is written is read -/

/-- a run of aosl_fwrite: chunks and how much of each the disk takes; the bytes counted as written -/
def writes (p : Port) : Fs → Handle → List (List Nat × Nat) → List Int × Fs × Handle
  | fs, h, [] => ([], fs, h)
  | fs, h, (d, room) :: l =>
    let r := fwrite p fs h d room
    let x := writes p r.2.2 r.2.1 l
    (r.1 :: x.1, x.2)

/-- a run of aosl_fread: the bytes got -/
def reads (p : Port) : Fs → Handle → List Nat → List (Int × List Nat) × Handle
  | _, h, [] => ([], h)
  | fs, h, n :: l =>
    let r := fread p fs h n
    let x := reads p fs r.2.2 l
    ((r.1, r.2.1) :: x.1, x.2)

/-- the bytes the answers say are in the file -/
def told : List Int → List (List Nat × Nat) → List Nat
  | r :: rs, (d, _) :: l => d.take r.toNat ++ told rs l
  | _, _ => []

/-- ports with streams -/
def streams (p : Port) : Prop := p ≠ .stub

theorem writes_go (p : Port) (hp : p ≠ .stub) : ∀ (l : List (List Nat × Nat)) (fs : Fs) (h : Handle) (c : List Nat), h.wr = true →
    get fs h.path = some (.file c) → (h.app = true ∨ h.pos = c.length) → (∀ d ∈ l, d.1.length < 2 ^ 31) →
    get (writes p fs h l).2.1 h.path = some (.file (c ++ told (writes p fs h l).1 l)) ∧ Only fs (writes p fs h l).2.1 h.path ∧
    (writes p fs h l).1.length = l.length ∧ (writes p fs h l).2.2.path = h.path := by
  intro l
  induction l with
  | nil => intro fs h c _ hg _ _; exact ⟨by simp [writes, told, hg], fun q _ => rfl, rfl, rfl⟩
  | cons x l ih =>
    intro fs h c hw hg hpos hsz
    obtain ⟨d, room⟩ := x
    have hd : d.length < 2 ^ 31 := hsz (d, room) (by simp)
    have hn : h.path ≠ [] := by intro h0; rw [h0, get_nil] at hg; simp at hg
    have hat : (if h.app = true then c.length else h.pos) = c.length := by
      split
      · rfl
      · rcases hpos with h1 | h1
        · contradiction
        · exact h1
    have hfw : fwrite p fs h d room = (((min room d.length : Nat) : Int), { h with pos := c.length + min room d.length },
        put fs h.path (.file (c ++ d.take (min room d.length)))) := by
      unfold fwrite
      have hsw : sysWrite fs h d room = (min room d.length, { h with pos := c.length + min room d.length },
          put fs h.path (.file (c ++ d.take (min room d.length)))) := by
        unfold sysWrite
        simp only [hg, hat]
        congr 3
        simp
      cases p <;> first | exact absurd rfl hp | (dsimp only; rw [if_pos hw, hsw, toInt_small _ (by omega)])
    simp only [writes, hfw]
    obtain ⟨i1, i2, i3, i4⟩ := ih (put fs h.path (.file (c ++ d.take (min room d.length)))) { h with pos := c.length + min room d.length }
      (c ++ d.take (min room d.length)) hw (by simp only; rw [get_put _ _ _ _ hn, if_pos rfl]) (by right; simp) (fun y hy => hsz y (by simp [hy]))
    refine ⟨?_, ?_, by simp [i3], i4⟩
    · simp only at i1
      rw [i1]
      simp only [told, List.append_assoc, Int.toNat_natCast]
    · intro q hq
      rw [i2 q hq, get_put _ _ _ _ hn, if_neg hq]

theorem reads_go (p : Port) (hp : p ≠ .stub) (fs : Fs) : ∀ (l : List Nat) (h : Handle) (c : List Nat), h.rd = true →
    get fs h.path = some (.file c) → c.length < 2 ^ 31 →
    ((reads p fs h l).1.map (·.2)).flatten = (c.drop h.pos).take l.sum ∧ ∀ x ∈ (reads p fs h l).1, x.1 = x.2.length := by
  intro l
  induction l with
  | nil => intro h c _ _ _; simp [reads]
  | cons n l ih =>
    intro h c hr hg hc
    have hfr : fread p fs h n = (((((c.drop h.pos).take n).length : Nat) : Int), ((c.drop h.pos).take n, { h with pos := h.pos + ((c.drop h.pos).take n).length })) := by
      have hsr : sysRead fs h n = ((c.drop h.pos).take n, { h with pos := h.pos + ((c.drop h.pos).take n).length }) := by
        simp [sysRead, content, hg]
      have hlt : ((c.drop h.pos).take n).length < 2 ^ 31 := by simp; omega
      unfold fread
      cases p <;> first | exact absurd rfl hp | (dsimp only; rw [if_pos hr, hsr, toInt_small _ hlt])
    simp only [reads, hfr]
    obtain ⟨i1, i2⟩ := ih { h with pos := h.pos + ((c.drop h.pos).take n).length } c hr hg hc
    refine ⟨?_, ?_⟩
    · simp only [List.map_cons, List.flatten_cons, i1, List.sum_cons]
      rw [← List.drop_drop]
      generalize c.drop h.pos = r
      rw [List.length_take, List.take_add]
      by_cases hnr : n ≤ r.length
      · rw [Nat.min_eq_left hnr]
      · rw [Nat.min_eq_right (by omega), List.drop_of_length_le (Nat.le_refl _), List.drop_of_length_le (by omega)]
    · intro x hx
      simp only [List.mem_cons] at hx
      rcases hx with rfl | hx
      · rfl
      · exact i2 x hx

theorem open_new (ok : Bool) (fs : Fs) (p : Path) (m : Mode) (h : Handle) (fs' : Fs) (ho : sysOpen ok fs p m = (some h, fs')) :
    h = ⟨p, 0, m.rd, m.wr, m.app⟩ ∧ Only fs fs' p ∧
    (m.trunc = true → get fs' p = some (.file [])) ∧
    (m.trunc = false → ∀ c, get fs p = some (.file c) → get fs' p = some (.file c)) ∧ (get fs p = none → get fs' p = some (.file [])) ∧ get fs p ≠ some .dir := by
  unfold sysOpen at ho
  split at ho
  · simp at ho
  cases hg : get fs p with
  | some n =>
    cases n with
    | dir => rw [hg] at ho; simp at ho
    | file c =>
      have hp : p ≠ [] := by rintro rfl; simp [get_nil] at hg
      rw [hg] at ho
      simp only [Prod.mk.injEq, Option.some.injEq] at ho
      obtain ⟨rfl, rfl⟩ := ho
      refine ⟨rfl, ?_, ?_, ?_, by simp, by simp⟩
      · intro q hq
        split
        · rw [get_put _ _ _ _ hp, if_neg hq]
        · rfl
      · intro ht; rw [if_pos ht, get_put _ _ _ _ hp, if_pos rfl]
      · intro ht c' hc'; rw [ht]; simp only [Bool.false_eq_true, if_false]; rw [hg]; exact hc'
  | none =>
    have hp : p ≠ [] := by rintro rfl; simp [get_nil] at hg
    rw [hg] at ho
    simp only at ho
    split at ho
    · simp only [Prod.mk.injEq, Option.some.injEq] at ho
      obtain ⟨rfl, rfl⟩ := ho
      refine ⟨rfl, ?_, ?_, by simp, ?_, by simp⟩
      · intro q hq; rw [get_put _ _ _ _ hp, if_neg hq]
      · intro _; rw [get_put _ _ _ _ hp, if_pos rfl]
      · intro _; rw [get_put _ _ _ _ hp, if_pos rfl]
    · simp at ho

/-- the mode that a port's open works with -/
theorem fopen_mode (p : Port) (ok : Bool) (fs : Fs) (s m : Str) (h : Handle) (fs' : Fs) (ho : fopen p ok fs s m = (some h, fs')) :
    ∃ k, sysOpen ok fs (comps s) k = (some h, fs') ∧
      k = (match p with
        | .xr872 => modeXr m
        | .ac791n => (modeC (sanitizeMode m)).getD k
        | _ => (modeC m).getD k) := by
  unfold fopen at ho
  cases p <;> dsimp only at ho ⊢
  case stub => simp at ho
  case xr872 => exact ⟨_, ho, rfl⟩
  all_goals
    split at ho
    · simp at ho
    · rename_i k hk; exact ⟨k, ho, by simp [hk]⟩

theorem sanitize_head (m : Str) (c : Nat) (hc : c ≠ 98) (h : m.head? = some c) : (sanitizeMode m).head? = some c := by
  cases m with
  | nil => simp at h
  | cons a m =>
    simp at h; subst h
    simp [sanitizeMode, hc]

/-- The claim C203 for a port and a first letter of the mode: after an open for writing ("w…") the file holds exactly the bytes the answers counted; with "a…" they come after
what was there; closed with the answer 0 and opened with "r", reads in any portions give these bytes in their order. -/
def ReadsBack (p : Port) (letter : Nat) : Prop :=
  ∀ ok fs s m h fs1 chunks, Wf fs → m.head? = some letter → fopen p ok fs s m = (some h, fs1) → (∀ d ∈ chunks, d.1.length < 2 ^ 31) →
    ∀ old, old = (if letter = 97 then content fs (comps s) else []) →
    let w := writes p fs1 h chunks
    get w.2.1 (comps s) = some (.file (old ++ told w.1 chunks)) ∧ Only fs w.2.1 (comps s) ∧ w.1.length = chunks.length ∧ (∀ x ∈ w.1, 0 ≤ x) ∧
    (∀ lost, fclose p true lost w.2.1 w.2.2 = (0, w.2.1)) ∧
    ((old ++ told w.1 chunks).length < 2 ^ 31 → ∀ ok2 h2 fs2 sizes, fopen p ok2 w.2.1 s [114] = (some h2, fs2) →
      ((reads p fs2 h2 sizes).1.map (·.2)).flatten = (old ++ told w.1 chunks).take sizes.sum ∧ ∀ x ∈ (reads p fs2 h2 sizes).1, x.1 = x.2.length)

theorem writes_nonneg (p : Port) (hp : p ≠ .stub) : ∀ (l : List (List Nat × Nat)) (fs : Fs) (h : Handle), h.wr = true → (∀ d ∈ l, d.1.length < 2 ^ 31) →
    ∀ x ∈ (writes p fs h l).1, 0 ≤ x := by
  intro l
  induction l with
  | nil => intro fs h _ _ x hx; simp [writes] at hx
  | cons y l ih =>
    intro fs h hw hsz x hx
    obtain ⟨d, room⟩ := y
    have hd : d.length < 2 ^ 31 := hsz (d, room) (by simp)
    have hcount : (sysWrite fs h d room).1 = min room d.length := by unfold sysWrite; dsimp only; split <;> rfl
    have hwr : (sysWrite fs h d room).2.1.wr = true := by unfold sysWrite; dsimp only; split <;> exact hw
    have hfw : fwrite p fs h d room = (((min room d.length : Nat) : Int), (sysWrite fs h d room).2) := by
      unfold fwrite
      cases p <;> first | exact absurd rfl hp | (dsimp only; rw [if_pos hw, hcount, toInt_small _ (by omega)])
    simp only [writes, hfw, List.mem_cons] at hx
    rcases hx with rfl | hx
    · omega
    · exact ih _ _ hwr (fun z hz => hsz z (by simp [hz])) x hx

theorem reads_back (p : Port) (letter : Nat) (hl : letter = 119 ∨ letter = 97) (hp : p ≠ .stub) (hx : p = .xr872 → letter = 119) : ReadsBack p letter := by
  intro ok fs s m h fs1 chunks wf hm ho hsz old hold
  obtain ⟨k, hk, hkm⟩ := fopen_mode p ok fs s m h fs1 ho
  have hmem : letter ∈ m := List.mem_of_mem_head? hm
  have hmode : k.wr = true ∧ (letter = 119 → k.trunc = true) ∧ (letter = 97 → k.trunc = false ∧ k.app = true) := by
    have hC : ∀ m' : Str, m'.head? = some letter → ((modeC m').getD k).wr = true ∧ (letter = 119 → ((modeC m').getD k).trunc = true) ∧
        (letter = 97 → ((modeC m').getD k).trunc = false ∧ ((modeC m').getD k).app = true) := by
      intro m' hm'
      rcases hl with rfl | rfl <;> simp [modeC, hm']
    cases p <;> dsimp only at hkm
    case stub => exact absurd rfl hp
    case xr872 =>
      have hle := hx rfl
      subst hle
      rw [hkm]; simp [modeXr, hmem]
    case ac791n =>
      have := hC (sanitizeMode m) (sanitize_head m letter (by omega) hm)
      rw [← hkm] at this; exact this
    all_goals (have := hC m hm; rw [← hkm] at this; exact this)
  obtain ⟨o1, o2, o3, o4, o5, o6⟩ := open_new ok fs (comps s) k h fs1 hk
  have hpath : h.path = comps s := by rw [o1]
  have hfile : get fs1 h.path = some (.file old) ∧ (h.app = true ∨ h.pos = old.length) := by
    rw [hpath]
    rcases hl with rfl | rfl
    · rw [if_neg (by decide)] at hold
      subst hold
      exact ⟨o3 (hmode.2.1 rfl), Or.inr (by rw [o1]; rfl)⟩
    · rw [if_pos rfl] at hold
      refine ⟨?_, Or.inl (by rw [o1]; exact (hmode.2.2 rfl).2)⟩
      cases hg : get fs (comps s) with
      | none => rw [hold]; simp only [content, hg]; exact o5 hg
      | some n =>
        cases n with
        | dir => exact absurd hg o6
        | file c => rw [hold]; simp only [content, hg]; exact o4 (hmode.2.2 rfl).1 c hg
  have hwr : h.wr = true := by rw [o1]; exact hmode.1
  obtain ⟨w1, w2, w3, w4⟩ := writes_go p hp chunks fs1 h old hwr hfile.1 hfile.2 hsz
  rw [hpath] at w1 w2
  refine ⟨w1, ?_, w3, writes_nonneg p hp chunks fs1 h hwr hsz, ?_, ?_⟩
  · intro q hq; rw [w2 q hq]; exact o2 q hq
  · intro lost; unfold fclose; cases p <;> first | exact absurd rfl hp | rfl
  · intro hlen ok2 h2 fs2 sizes ho2
    obtain ⟨k2, hk2, hkm2⟩ := fopen_mode p ok2 _ s [114] h2 fs2 ho2
    have hm2 : k2.rd = true ∧ k2.trunc = false := by
      have hC : ((modeC [114]).getD k2).rd = true ∧ ((modeC [114]).getD k2).trunc = false := ⟨rfl, rfl⟩
      cases p <;> dsimp only at hkm2
      case stub => exact absurd rfl hp
      case xr872 => rw [hkm2]; decide
      all_goals (rw [hkm2]; exact hC)
    obtain ⟨r1, r2, r3, r4, _, _⟩ := open_new ok2 _ (comps s) k2 h2 fs2 hk2
    have := reads_go p hp fs2 sizes h2 (old ++ told (writes p fs1 h chunks).1 chunks) (by rw [r1]; exact hm2.1)
      (by rw [r1]; exact r4 hm2.2 _ w1) hlen
    rw [r1] at this ⊢
    simpa using this

/-- C203 for new files, on every port with streams, for every history, all chunks and sizes of reads, whatever the disk takes. -/
theorem C203_write_read (p : Port) (hp : streams p) : ReadsBack p 119 := reads_back p 119 (Or.inl rfl) hp (fun _ => rfl)

/-- C203 for appending, on every port with streams but xr872. -/
theorem C203_append_partial (p : Port) (hp : streams p) (hx : p ≠ .xr872) : ReadsBack p 97 := reads_back p 97 (Or.inr rfl) hp (fun h => absurd h hx)

/-- Violated on xr872: a file opened with "a" or "ab" takes no byte: every write answers a negative value and nothing changes. -/
theorem C203_xr_append_denied (ok : Bool) (fs : Fs) (s m : Str) (h : Handle) (fs1 : Fs) (hm : m = [97] ∨ m = [97, 98])
    (ho : fopen .xr872 ok fs s m = (some h, fs1)) (d : List Nat) (room : Nat) : fwrite .xr872 fs1 h d room = (-1, h, fs1) := by
  obtain ⟨k, hk, hkm⟩ := fopen_mode .xr872 ok fs s m h fs1 ho
  dsimp only at hkm
  have hw : h.wr = false := by
    rw [(open_new ok fs (comps s) k h fs1 hk).1, hkm]
    rcases hm with rfl | rfl <;> rfl
  simp [fwrite, hw]

theorem C203_xr_violated : ¬ ReadsBack .xr872 97 := by
  intro h
  have := (h true fs0 [103] [97] ⟨[[103]], 0, false, false, true⟩ fs0 [([7], 1)] wf0 rfl (by decide) (by simp) _ rfl).2.2.2.1 (-1) (by decide)
  omega

/-- "a+" works there. -/
example : fwrite .xr872 fs0 (fopen .xr872 true fs0 [103] [97, 43]).1.get! [7] 1 = (1, ⟨[[103]], 2, true, true, true⟩, ([[103]], .file [3, 7]) :: del fs0 [[103]]) := by decide

/-- On the ports of stubs no file can be opened. -/
theorem C203_stub (ok : Bool) (fs : Fs) (s m : Str) : fopen .stub ok fs s m = (none, fs) := rfl

-- two chunks, the disk takes two bytes of the second; then reads of 2 and 9 bytes
example : (writes .posix (fopen .posix true fs0 [120] [119, 98]).2 (fopen .posix true fs0 [120] [119, 98]).1.get! [([1, 2], 9), ([3, 4, 5], 2)]).1 = [2, 2] := by decide
example : (reads .posix fs0 ⟨[[100], [102]], 0, true, false, false⟩ [1, 9]).1 = [(1, [1]), (1, [2])] := by decide

/-- On the ports with streams an open for writing or appending makes a file that is not there yet (in a directory that is), if the system does its part. -/
theorem C203_open_creates (p : Port) (hp : streams p) (fs : Fs) (s m : Str) (letter : Nat) (hl : letter = 119 ∨ letter = 97) (hm : m.head? = some letter)
    (hd : get fs (comps s).dropLast = some .dir) (hn : get fs (comps s) = none) :
    ∃ h fs1, fopen p true fs s m = (some h, fs1) ∧ get fs1 (comps s) = some (.file []) := by
  have hne : comps s ≠ [] := by intro h; rw [h] at hn; simp [get_nil] at hn
  have key : ∀ k : Mode, k.create = true → ∃ h fs1, sysOpen true fs (comps s) k = (some h, fs1) ∧ get fs1 (comps s) = some (.file []) := by
    intro k hk
    refine ⟨⟨comps s, 0, k.rd, k.wr, k.app⟩, put fs (comps s) (.file []), ?_, ?_⟩
    · simp [sysOpen, hn, hk, hd]
    · rw [get_put _ _ _ _ hne, if_pos rfl]
  have hmem : letter ∈ m := by
    cases m with
    | nil => simp at hm
    | cons a m => simp at hm; simp [hm]
  have hC : ∀ m : Str, m.head? = some letter → ∃ k, modeC m = some k ∧ k.create = true := by
    intro m hm
    rcases hl with rfl | rfl <;> (unfold modeC; rw [hm]; exact ⟨_, rfl, rfl⟩)
  have hb : letter ≠ 98 := by rcases hl with rfl | rfl <;> decide
  cases p
  case stub => exact absurd rfl hp
  case xr872 =>
    apply key
    rcases hl with rfl | rfl <;> simp [modeXr, hmem]
  case ac791n =>
    obtain ⟨k, hk, hc⟩ := hC _ (sanitize_head m letter hb hm)
    simpa [fopen, hk] using key k hc
  all_goals
    obtain ⟨k, hk, hc⟩ := hC m hm
    simpa [fopen, hk] using key k hc

/-- A stream not open for reading gives no data, one not open for writing takes none: the answer is not positive and nothing changes. -/
theorem C203_wrong_direction (p : Port) (fs : Fs) (h : Handle) (n : Nat) (d : List Nat) (room : Nat) :
    (h.rd = false → (fread p fs h n).1 ≤ 0 ∧ (fread p fs h n).2 = ([], h)) ∧ (h.wr = false → (fwrite p fs h d room).1 ≤ 0 ∧ (fwrite p fs h d room).2 = (h, fs)) := by
  constructor
  · intro hr
    cases p <;> simp [fread, hr]
  · intro hw
    cases p <;> simp [fwrite, hw]

example : (fopen .xr872 true fs0 [120] [119]).1.isSome = true ∧ get (fopen .xr872 true fs0 [120] [119]).2 [[120]] = some (.file []) ∧
    (fread .posix fs0 (fopen .posix true fs0 [120] [119]).1.get! 5).1 = 0 ∧ (fread .xr872 fs0 (fopen .xr872 true fs0 [120] [119]).1.get! 5).1 = -1 := by decide

/-- The size of a file on the ports that tell one: exact below 2 GiB, otherwise the number of the same last 32 bits between -2^31 and 2^31. -/
theorem C202_size (p : Port) (hp : p ≠ .tw82x ∧ p ≠ .stub) (fs : Fs) (s : Str) (c : List Nat) (h : get fs (comps s) = some (.file c)) :
    (c.length < 2 ^ 31 → fsize p fs s = c.length) ∧ -2 ^ 31 ≤ fsize p fs s ∧ fsize p fs s < 2 ^ 31 ∧ (fsize p fs s - c.length) % 2 ^ 32 = 0 := by
  have e : fsize p fs s = toInt c.length := by
    cases p <;> simp_all [fsize]
  rw [e]
  unfold toInt
  generalize c.length = n
  split <;> omega

/-- a file of 3 GiB would have a negative size -/
example : toInt (3 * 2 ^ 30) = -1073741824 := by decide

/-! ## C204: removing a directory with all in it, on xr872 -/

/-- the length of the text "/a/b" for names below -/
def slen : List Str → Nat
  | [] => 0
  | x :: r => x.length + 1 + slen r

/-- The claim C204: the call ends; after the answer 0 the directory and all below are gone, and nothing outside is ever touched. -/
def RemovesTree (fs : Fs) (s : Str) : Prop :=
  ∃ fuel x, rmdir .xr872 true fuel fs s = some x ∧ x.1 = 0 ∧ ∀ q, get x.2 q = if comps s <+: q then none else get fs q

theorem xr_loop (f : Nat) (p : Path) (s : Str) (hs : comps s = p)
    (ih : ∀ (fs : Fs) (t : Str), Wf fs → comps t ≠ [] → get fs (comps t) = some .dir →
      (∀ e ∈ fs, comps t <+: e.1 → t.length + slen (e.1.drop (comps t).length) ≤ 259) → (∀ e ∈ fs, comps t <+: e.1 → e.1.length < (comps t).length + f) →
      xrRmdir (fun _ => true) f fs t = some (0, cut fs (comps t))) :
    ∀ (l : List (Str × Bool)) (fs : Fs), Wf fs → (l.map (·.1)).Nodup → (∀ c ∈ l, ∃ n, (p ++ [c.1], n) ∈ fs ∧ c.2 = (n == .dir)) →
      (∀ e ∈ fs, p <+: e.1 → s.length + slen (e.1.drop p.length) ≤ 259) → (∀ e ∈ fs, p <+: e.1 → e.1.length < p.length + (f + 1)) →
      xrLoop (xrRmdir (fun _ => true) f) (fun _ => true) s l fs = some (true, fs.filter fun e => l.all fun c => !(decide (p ++ [c.1] <+: e.1))) := by
  intro l
  induction l with
  | nil =>
    intro fs _ _ _ _ _
    simp only [xrLoop, List.all_nil]
    rw [List.filter_eq_self.2 (by intros; rfl)]
  | cons c l ihl =>
    intro fs w hnd hch hlen hdep
    obtain ⟨x, b⟩ := c
    obtain ⟨n, hn, hb⟩ := hch (x, b) (by simp)
    simp only at hn hb
    have hnm := w.nm _ hn x (by simp)
    have hl1 := hlen _ hn ⟨[x], rfl⟩
    simp only [List.drop_left, slen] at hl1
    have ht : (s ++ 47 :: x).take 259 = s ++ 47 :: x := List.take_of_length_le (by simp; omega)
    have hcx : comps (s ++ 47 :: x) = p ++ [x] := by rw [comps_append, hs, comps_plain x hnm.2 hnm.1]
    have hgx := mem_get w hn
    -- the tree after this entry
    have hstep : ∀ (r : Option (Bool × Fs)), r = xrLoop (xrRmdir (fun _ => true) f) (fun _ => true) s l (cut fs (p ++ [x])) →
        r = some (true, fs.filter fun e => ((x, b) :: l).all fun c => !(decide (p ++ [c.1] <+: e.1))) := by
      rintro r rfl
      simp only [List.map_cons, List.nodup_cons] at hnd
      rw [ihl (cut fs (p ++ [x])) (wf_cut w (by simp)) hnd.2]
      · unfold cut
        rw [List.filter_filter]
        congr 2
        apply List.filter_congr
        intro e _
        simp [Bool.and_comm]
      · intro c hc
        obtain ⟨m, hm, hmb⟩ := hch c (by simp [hc])
        refine ⟨m, ?_, hmb⟩
        unfold cut
        rw [List.mem_filter]
        refine ⟨hm, ?_⟩
        simp only [Bool.not_eq_true', decide_eq_false_iff_not]
        intro h
        have := h.eq_of_length (by simp)
        have hxc : x = c.1 := by simpa using this
        exact hnd.1 (by rw [hxc]; exact List.mem_map_of_mem hc)
      · intro e he; exact hlen e (memf he)
      · intro e he; exact hdep e (memf he)
    simp only [xrLoop, ht]
    cases n with
    | dir =>
      have hbt : b = true := by rw [hb]; rfl
      subst hbt
      simp only [if_true]
      have hrec := ih fs (s ++ 47 :: x) w (by rw [hcx]; simp) (by rw [hcx]; exact hgx)
        (by
          intro e he hpre
          rw [hcx] at hpre ⊢
          obtain ⟨u, hu⟩ := hpre
          have h1 := hlen e he ⟨[x] ++ u, by rw [← hu]; simp⟩
          rw [← hu] at h1 ⊢
          rw [List.append_assoc, List.drop_left] at h1
          rw [List.drop_left]
          simp only [List.cons_append, List.nil_append, slen] at h1
          simp; omega)
        (by
          intro e he hpre
          rw [hcx] at hpre ⊢
          have h1 := hdep e he ((List.prefix_append _ _).trans hpre)
          simp; omega)
      rw [hrec, hcx]
      simp only
      rw [if_neg (by omega)]
      exact hstep _ rfl
    | file c =>
      have hbt : b = false := by rw [hb]; rfl
      subst hbt
      simp only [Bool.false_eq_true, if_false]
      have hu : sysUnlink true true fs (comps (s ++ 47 :: x)) = (true, cut fs (p ++ [x])) := by
        rw [hcx]
        unfold sysUnlink
        simp only [hgx]
        rw [← del_eq_cut (below_file w hgx)]
        rfl
      rw [hu]
      simp only [if_true]
      exact hstep _ rfl

theorem children_nodup {fs : Fs} (w : Wf fs) (p : Path) : ((children fs p).map (·.1)).Nodup := by
  have hn := w.nodup
  have key : ∀ l : Fs, (l.map (·.1)).Nodup → ((children l p).map (·.1)).Nodup := by
    intro l
    induction l with
    | nil => intro _; simp [children]
    | cons e l ih =>
      intro h
      simp only [List.map_cons, List.nodup_cons] at h
      unfold children
      rw [List.filterMap_cons]
      split
      · exact ih h.2
      · rename_i c hc
        have hmem : (c.1, c.2) ∈ children [e] p := by
          unfold children
          rw [List.mem_filterMap]
          exact ⟨e, by simp, hc⟩
        obtain ⟨n, hn', _⟩ := mem_children.1 hmem
        simp only [List.mem_singleton] at hn'
        simp only [List.map_cons, List.nodup_cons]
        refine ⟨?_, ih h.2⟩
        intro hin
        rw [List.mem_map] at hin
        obtain ⟨d, hd, hdc⟩ := hin
        obtain ⟨n2, hn2, _⟩ := mem_children (x := d.1) (b := d.2).1 hd
        rw [hdc] at hn2
        apply h.1
        rw [← hn']
        exact List.mem_map_of_mem (f := (·.1)) hn2
  exact key fs hn

theorem xr_all : ∀ (f : Nat) (fs : Fs) (s : Str), Wf fs → comps s ≠ [] → get fs (comps s) = some .dir →
    (∀ e ∈ fs, comps s <+: e.1 → s.length + slen (e.1.drop (comps s).length) ≤ 259) → (∀ e ∈ fs, comps s <+: e.1 → e.1.length < (comps s).length + f) →
    xrRmdir (fun _ => true) f fs s = some (0, cut fs (comps s)) := by
  intro f
  induction f with
  | zero =>
    intro fs s w hp hg hlen hdep
    have := hdep _ (get_some_mem hp hg) (List.prefix_refl _)
    simp at this
  | succ f ih =>
    intro fs s w hp hg hlen hdep
    simp only [xrRmdir]
    rw [if_neg (by simp [hg])]
    have hl := xr_loop f (comps s) s rfl ih (children fs (comps s)) fs w (children_nodup w _)
      (by intro c hc; exact mem_children.1 hc) hlen hdep
    rw [hl]
    simp only
    -- what is left below is nothing
    have heq : ∀ e ∈ fs, ((children fs (comps s)).all fun c => !(decide (comps s ++ [c.1] <+: e.1))) = true → comps s <+: e.1 → e.1 = comps s := by
      intro e he hall hpre
      obtain ⟨u, hu⟩ := hpre
      cases u with
      | nil => rw [← hu]; simp
      | cons x u =>
        exfalso
        have hp2 : comps s ++ [x] <+: e.1 := ⟨u, by rw [← hu]; simp⟩
        obtain ⟨n, hn⟩ := closed w (e.1.length - (comps s ++ [x]).length) (comps s ++ [x]) e he hp2 (by have := hp2.length_le; omega) (by simp)
        have hc := mem_children.2 ⟨n, hn, rfl⟩
        rw [List.all_eq_true] at hall
        have := hall _ hc
        simp only [Bool.not_eq_true', decide_eq_false_iff_not] at this
        exact this hp2
    generalize hf1 : (fs.filter fun e => (children fs (comps s)).all fun c => !(decide (comps s ++ [c.1] <+: e.1))) = fs1
    have hmem1 : ∀ e ∈ fs1, e ∈ fs ∧ ((children fs (comps s)).all fun c => !(decide (comps s ++ [c.1] <+: e.1))) = true := by
      intro e he; rw [← hf1] at he; exact List.mem_filter.1 he
    have hg1 : get fs1 (comps s) = some .dir := by
      rw [← hf1]
      unfold get at hg ⊢
      rw [if_neg hp] at hg ⊢
      rw [List.find?_filter]
      have : (fun a : Path × Node => decide (((children fs (comps s)).all fun c => !(decide (comps s ++ [c.1] <+: a.1))) = true ∧ (a.1 == comps s) = true)) =
          fun a => a.1 == comps s := by
        funext a
        by_cases ha : a.1 = comps s
        · have : ((children fs (comps s)).all fun c => !(decide (comps s ++ [c.1] <+: a.1))) = true := by
            rw [List.all_eq_true]
            intro c _
            simp only [Bool.not_eq_true', decide_eq_false_iff_not]
            intro h
            have := h.length_le
            rw [ha] at this; simp at this; omega
          rw [this, ha]; simp
        · simp [ha]
      simp only [this] 
      exact hg
    have hc1 : children fs1 (comps s) = [] := by
      rw [List.eq_nil_iff_forall_not_mem]
      rintro ⟨x, b⟩ hx
      obtain ⟨n, hn, _⟩ := mem_children.1 hx
      have h1 := hmem1 _ hn
      have := heq _ h1.1 h1.2 ⟨[x], rfl⟩
      simp at this
    have hu : sysUnlink true true fs1 (comps s) = (true, del fs1 (comps s)) := by
      simp [sysUnlink, sysRmdir, hg1, hc1, hp]
    rw [hu]
    simp only [ans, if_true]
    congr 2
    rw [← hf1]
    unfold del cut
    rw [List.filter_filter]
    apply List.filter_congr
    intro e he
    by_cases h1 : comps s <+: e.1
    · by_cases h2 : e.1 = comps s
      · simp [h2]
      · have : ((children fs (comps s)).all fun c => !(decide (comps s ++ [c.1] <+: e.1))) = false := by
          cases hx : ((children fs (comps s)).all fun c => !(decide (comps s ++ [c.1] <+: e.1))) with
          | false => rfl
          | true => exact absurd (heq e he hx h1) h2
        rw [this]; simp [h1]
    · have h2 : e.1 ≠ comps s := by intro h; rw [h] at h1; exact h1 (List.prefix_refl _)
      have : ((children fs (comps s)).all fun c => !(decide (comps s ++ [c.1] <+: e.1))) = true := by
        rw [List.all_eq_true]
        intro c _
        simp only [Bool.not_eq_true', decide_eq_false_iff_not]
        intro h
        exact h1 ((List.prefix_append _ _).trans h)
      rw [this]; simp [h1, h2]

theorem slen_ge (r : List Str) : r.length ≤ slen r := by
  induction r with
  | nil => simp [slen]
  | cons x r ih => simp only [slen, List.length_cons]; omega

/-- C204, for every tree whose texts fit: if no path below, printed, is longer than 259 characters the call ends within 260 nested calls, the whole directory is gone and
nothing else changed. -/
theorem C204_removes_tree_partial (fs : Fs) (s : Str) (w : Wf fs) (hp : comps s ≠ []) (hg : get fs (comps s) = some .dir)
    (hlen : ∀ e ∈ fs, comps s <+: e.1 → s.length + slen (e.1.drop (comps s).length) ≤ 259) : RemovesTree fs s := by
  refine ⟨260, (0, cut fs (comps s)), ?_, rfl, ?_⟩
  · refine xr_all 260 fs s w hp hg hlen ?_
    intro e he hpre
    have h1 := hlen e he hpre
    have h2 := slen_ge (e.1.drop (comps s).length)
    have := hpre.length_le
    simp at h2; omega
  · intro q; exact get_cut fs (comps s) q hp

/-- Violated: with a path of exactly 259 characters whose first entry is a directory the call calls itself with the same path for ever. -/
theorem C204_endless (fs : Fs) (s : Str) (hs : s.length = 259) (hg : get fs (comps s) = some .dir) (x : Str) (l : List (Str × Bool))
    (hc : children fs (comps s) = (x, true) :: l) (ok : Path → Bool) : ∀ fuel, xrRmdir ok fuel fs s = none := by
  intro fuel
  induction fuel with
  | zero => rfl
  | succ f ih =>
    simp only [xrRmdir]
    rw [if_neg (by simp [hg]), hc]
    have ht : (s ++ 47 :: x).take 259 = s := by rw [← hs, List.take_left]
    simp only [xrLoop, ht, ih, if_true]

/-- names for the witnesses: 128 and 129 characters, so that "/a…/b…" has 259 -/
def nA : Str := List.replicate 128 97
def nB : Str := List.replicate 129 98
def pathAB : Str := 47 :: nA ++ 47 :: nB

/-- /A, /A/B, /A/B/x -/
def fsDeep : Fs := [([nA], .dir), ([nA, nB], .dir), ([nA, nB, [120]], .dir)]

/-- /A, /A/Bb with a file x in it, and the file /A/B beside it -/
def fsBeside : Fs := [([nA], .dir), ([nA, nB ++ [98]], .dir), ([nA, nB ++ [98], [120]], .file [1]), ([nA, nB], .file [2])]

theorem C204_violated_endless : Wf fsDeep ∧ get fsDeep (comps pathAB) = some .dir ∧ ¬ RemovesTree fsDeep pathAB := by
  refine ⟨⟨by decide +kernel, by decide +kernel, by decide +kernel, by decide +kernel⟩, by decide +kernel, ?_⟩
  rintro ⟨fuel, x, hr, _⟩
  have := C204_endless fsDeep pathAB (by decide +kernel) (by decide +kernel) [120] [] (by decide +kernel) (fun _ => true) fuel
  simp only [rmdir] at hr
  rw [this] at hr; simp at hr

/-- Violated: one character more, and removing /A/Bb deletes the file /A/B beside it, leaves the directory and answers a negative value. -/
theorem C204_violated_beside : Wf fsBeside ∧ get fsBeside [nA, nB] = some (.file [2]) ∧ comps (pathAB ++ [98]) = [nA, nB ++ [98]] ∧
    ∃ fs', rmdir .xr872 true 2 fsBeside (pathAB ++ [98]) = some (-1, fs') ∧ get fs' [nA, nB] = none ∧ get fs' [nA, nB ++ [98]] = some .dir := by
  refine ⟨⟨by decide +kernel, by decide +kernel, by decide +kernel, by decide +kernel⟩, by decide +kernel, by decide +kernel,
    [([nA], .dir), ([nA, nB ++ [98]], .dir), ([nA, nB ++ [98], [120]], .file [1])], by decide +kernel, by decide +kernel, by decide +kernel⟩

/-- On the other ports with a file system a directory that is not empty stays. -/
theorem C204_others_refuse (p : Port) (hp : p = .posix ∨ p = .windows ∨ p = .asr1606 ∨ p = .ac791n) (ok : Bool) (fuel : Nat) (fs : Fs) (s : Str)
    (hg : get fs (comps s) = some .dir) (hc : children fs (comps s) ≠ []) : rmdir p ok fuel fs s = some (-1, fs) := by
  have hr : ∀ ok, sysRmdir ok fs (comps s) = (false, fs) := by
    intro ok; unfold sysRmdir; rw [if_neg]; rintro ⟨_, _, _, h⟩; exact hc h
  rcases hp with rfl | rfl | rfl | rfl
  · simp [rmdir, hr, ans]
  · simp [rmdir, hr, ans]
  · simp only [rmdir, sysUnlink, hg, hr]; cases ok <;> simp [ans]
  · by_cases hs : s = []
    · simp [rmdir, hs]
    · have : comps (acRmArg s) = comps s := by
        unfold acRmArg
        split
        · rename_i hl
          rw [List.getLast?_eq_some_getLast hs] at hl
          injection hl with hl
          have : s = s.dropLast ++ 47 :: [] := by rw [← hl, List.dropLast_concat_getLast]
          conv => rhs; rw [this]
          rw [comps_append]; simp [comps, splitGo]
        · rfl
      simp [rmdir, hs, this, hr, ans]

example : rmdir .xr872 true 3 fs0 [100] = some (0, [([[103]], .file [3])]) := by decide
example : ∀ e ∈ fs0, comps [100] <+: e.1 → [100].length + slen (e.1.drop (comps [100]).length) ≤ 259 := by decide

end Verif.PortFile
