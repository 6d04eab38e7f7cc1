import Verif.PortFile

/-!
# Files on the ports: facts about the tree
-/

namespace Verif.PortFile

/-- A tree: no path twice, the root not stored, names not empty and without slash, every node in a directory that is there. -/
structure Wf (fs : Fs) : Prop where
  nodup : (fs.map (·.1)).Nodup
  ne : ∀ e ∈ fs, e.1 ≠ []
  par : ∀ e ∈ fs, get fs e.1.dropLast = some .dir
  nm : ∀ e ∈ fs, ∀ x ∈ e.1, x ≠ [] ∧ 47 ∉ x

theorem memf {l : List α} {f : α → Bool} {a : α} (h : a ∈ l.filter f) : a ∈ l := (List.mem_filter.1 h).1

theorem get_nil (fs : Fs) : get fs [] = some .dir := by simp [get]

theorem get_del (fs : Fs) (p q : Path) (hp : p ≠ []) : get (del fs p) q = if q = p then none else get fs q := by
  unfold get del
  by_cases hq : q = []
  · subst hq; rw [if_pos rfl, if_neg (Ne.symm hp), if_pos rfl]
  rw [if_neg hq, if_neg hq, List.find?_filter]
  by_cases h : q = p
  · subst h
    rw [if_pos rfl]
    simp only [Option.map_eq_none_iff, List.find?_eq_none]
    intro e _
    simp
  · rw [if_neg h]
    congr 1
    congr 1
    funext e
    by_cases he : e.1 = q
    · simp [he, h]
    · simp [he]

theorem get_put (fs : Fs) (p q : Path) (n : Node) (hp : p ≠ []) : get (put fs p n) q = if q = p then some n else get fs q := by
  by_cases h : q = p
  · subst h; rw [if_pos rfl]
    unfold get put
    rw [if_neg hp]; simp
  · rw [if_neg h]
    have hd := get_del fs p q hp
    rw [if_neg h] at hd
    rw [← hd]
    unfold get put
    by_cases hq : q = []
    · rw [if_pos hq, if_pos hq]
    · rw [if_neg hq, if_neg hq, List.find?_cons_of_neg (by simp; exact fun h' => h h'.symm)]

theorem get_some_mem {fs : Fs} {p : Path} {n : Node} (hp : p ≠ []) (h : get fs p = some n) : (p, n) ∈ fs := by
  unfold get at h
  rw [if_neg hp, Option.map_eq_some_iff] at h
  obtain ⟨e, he, rfl⟩ := h
  have h1 := List.find?_some he
  have h2 := List.mem_of_find?_eq_some he
  simp at h1
  rw [← h1]; exact h2

theorem mem_get {fs : Fs} (w : Wf fs) {p : Path} {n : Node} (h : (p, n) ∈ fs) : get fs p = some n := by
  have hp := w.ne _ h
  simp only at hp
  have hx : ∃ m, get fs p = some m := by
    unfold get; rw [if_neg hp]
    cases hf : fs.find? (·.1 == p) with
    | some e => exact ⟨_, rfl⟩
    | none =>
      rw [List.find?_eq_none] at hf
      exact absurd (hf _ h) (by simp)
  obtain ⟨m, hm⟩ := hx
  have hmem := get_some_mem hp hm
  have key : ∀ l : Fs, (l.map (·.1)).Nodup → (p, n) ∈ l → (p, m) ∈ l → n = m := by
    intro l
    induction l with
    | nil => intro _ h; simp at h
    | cons e l ih =>
      intro hn h1 h2
      simp only [List.map_cons, List.nodup_cons] at hn
      simp only [List.mem_cons] at h1 h2
      rcases h1 with rfl | h1 <;> rcases h2 with h2 | h2
      · exact (Prod.mk.inj h2).2.symm
      · exact absurd (List.mem_map_of_mem (f := (·.1)) h2) hn.1
      · subst h2; exact absurd (List.mem_map_of_mem (f := (·.1)) h1) hn.1
      · exact ih hn.2 h1 h2
  rw [hm, key fs w.nodup h hmem]

theorem mem_children {fs : Fs} {p : Path} {x : Str} {b : Bool} : (x, b) ∈ children fs p ↔ ∃ n, (p ++ [x], n) ∈ fs ∧ b = (n == .dir) := by
  unfold children
  rw [List.mem_filterMap]
  constructor
  · rintro ⟨e, he, h⟩
    cases hl : e.1.getLast? with
    | none => rw [hl] at h; simp at h
    | some y =>
      rw [hl] at h
      by_cases hd : e.1.dropLast = p
      · simp only [hd, if_true, Option.some.injEq, Prod.mk.injEq] at h
        obtain ⟨rfl, rfl⟩ := h
        refine ⟨e.2, ?_, rfl⟩
        have hne : e.1 ≠ [] := by intro h0; rw [h0] at hl; simp at hl
        have : e.1 = p ++ [y] := by
          rw [← hd, List.getLast?_eq_some_getLast hne] at *
          injection hl with hl
          rw [← hl, List.dropLast_concat_getLast]
        rw [← this]; exact he
      · simp [hd] at h
  · rintro ⟨n, he, rfl⟩
    exact ⟨_, he, by simp⟩

theorem wf_nil : Wf [] := ⟨by simp, by simp, by simp, by simp⟩

theorem wf_put {fs : Fs} (w : Wf fs) {p : Path} {n : Node} (hp : p ≠ []) (hn : ∀ x ∈ p, x ≠ [] ∧ 47 ∉ x) (hpar : get fs p.dropLast = some .dir)
    (hd : n = .dir ∨ get fs p ≠ some .dir) : Wf (put fs p n) := by
  have hdl : p.dropLast ≠ p := by
    intro h
    have := congrArg List.length h
    have hl : 0 < p.length := List.length_pos_iff.2 hp
    simp at this; omega
  refine ⟨?_, ?_, ?_, ?_⟩
  · simp only [put, List.map_cons, List.nodup_cons]
    refine ⟨?_, ?_⟩
    · simp [del]
    · exact List.Sublist.nodup (List.filter_sublist.map _) w.nodup
  · intro e he
    simp only [put, del, List.mem_cons, List.mem_filter] at he
    rcases he with rfl | he
    · exact hp
    · exact w.ne e he.1
  · intro e he
    simp only [put, del, List.mem_cons, List.mem_filter] at he
    rw [get_put _ _ _ _ hp]
    rcases he with rfl | he
    · rw [if_neg hdl]; exact hpar
    · by_cases h : e.1.dropLast = p
      · rw [if_pos h]
        rcases hd with rfl | hd
        · rfl
        · have := w.par e he.1
          rw [h] at this
          exact absurd this hd
      · rw [if_neg h]; exact w.par e he.1
  · intro e he
    simp only [put, del, List.mem_cons, List.mem_filter] at he
    rcases he with rfl | he
    · exact hn
    · exact w.nm e he.1

theorem wf_del {fs : Fs} (w : Wf fs) {p : Path} (hp : p ≠ []) (h : (∃ c, get fs p = some (.file c)) ∨ children fs p = []) : Wf (del fs p) := by
  refine ⟨List.Sublist.nodup (List.filter_sublist.map _) w.nodup, ?_, ?_, ?_⟩
  · intro e he; exact w.ne e (memf he)
  · intro e he
    have he' := memf he
    rw [get_del _ _ _ hp]
    by_cases hd : e.1.dropLast = p
    · exfalso
      rcases h with ⟨c, hc⟩ | h
      · have := w.par e he'
        rw [hd, hc] at this; simp at this
      · have hne := w.ne e he'
        have : (e.1.getLast hne, e.2 == .dir) ∈ children fs p :=
          mem_children.2 ⟨e.2, by rw [← hd, List.dropLast_concat_getLast]; exact he', rfl⟩
        rw [h] at this; simp at this
    · rw [if_neg hd]; exact w.par e he'
  · intro e he; exact w.nm e (memf he)

/-! ## Cutting off a subtree -/

def cut (fs : Fs) (q : Path) : Fs := fs.filter fun e => !(decide (q <+: e.1))

theorem get_cut (fs : Fs) (q r : Path) (hq : q ≠ []) : get (cut fs q) r = if q <+: r then none else get fs r := by
  unfold get cut
  by_cases hr : r = []
  · subst hr
    rw [if_pos rfl, if_pos rfl, if_neg (by simpa using hq)]
  rw [if_neg hr, if_neg hr, List.find?_filter]
  by_cases h : q <+: r
  · rw [if_pos h, Option.map_eq_none_iff, List.find?_eq_none]
    intro e _
    intro h1
    simp at h1
    rw [h1.2] at h1
    exact h1.1 h
  · rw [if_neg h]
    congr 1
    congr 1
    funext e
    by_cases he : e.1 = r
    · simp [he, h]
    · simp [he]

theorem wf_cut {fs : Fs} (w : Wf fs) {q : Path} (hq : q ≠ []) : Wf (cut fs q) := by
  refine ⟨List.Sublist.nodup (List.filter_sublist.map _) w.nodup, ?_, ?_, ?_⟩
  · intro e he; exact w.ne e (memf he)
  · intro e he
    have he' := List.mem_filter.1 he
    rw [get_cut _ _ _ hq, if_neg]
    · exact w.par e he'.1
    · intro h
      have := he'.2
      simp only [Bool.not_eq_true', decide_eq_false_iff_not] at this
      exact this (h.trans (List.dropLast_prefix _))
  · intro e he; exact w.nm e (memf he)

/-- whatever lies on the way to a node is there -/
theorem closed {fs : Fs} (w : Wf fs) : ∀ (k : Nat) (q : Path) (e : Path × Node), e ∈ fs → q <+: e.1 → e.1.length = q.length + k → q ≠ [] → ∃ n, (q, n) ∈ fs := by
  intro k
  induction k with
  | zero =>
    intro q e he hp hl _
    have : q = e.1 := hp.eq_of_length (by omega)
    exact ⟨e.2, by rw [this]; exact he⟩
  | succ k ih =>
    intro q e he hp hl hq
    have hpar := w.par e he
    have hlen : e.1.dropLast.length = q.length + k := by simp; omega
    have hne : e.1.dropLast ≠ [] := by
      intro h0
      rw [h0] at hlen
      have : 0 < q.length := List.length_pos_iff.2 hq
      simp at hlen; omega
    have hm := get_some_mem hne hpar
    refine ih q _ hm ?_ hlen hq
    have := List.prefix_of_prefix_length_le hp (List.dropLast_prefix e.1) (by omega)
    exact this

/-- nothing lies below a file -/
theorem below_file {fs : Fs} (w : Wf fs) {q : Path} {c : List Nat} (hf : get fs q = some (.file c)) : ∀ e ∈ fs, q <+: e.1 → e.1 = q := by
  intro e he hp
  have hq : q ≠ [] := by rintro rfl; simp [get_nil] at hf
  rcases Nat.lt_or_ge q.length e.1.length with h | h
  · exfalso
    obtain ⟨t, ht⟩ := hp
    cases t with
    | nil => rw [← ht] at h; simp at h
    | cons x t =>
      have hp2 : q ++ [x] <+: e.1 := ⟨t, by rw [← ht]; simp⟩
      obtain ⟨n, hn⟩ := closed w (e.1.length - (q ++ [x]).length) (q ++ [x]) e he hp2 (by have := hp2.length_le; omega) (by simp)
      have := w.par _ hn
      simp only [List.dropLast_concat] at this
      rw [hf] at this; simp at this
  · exact (hp.eq_of_length_le h).symm

/-- nor below an empty directory -/
theorem below_empty {fs : Fs} (w : Wf fs) {q : Path} (hq : q ≠ []) (hc : children fs q = []) : ∀ e ∈ fs, q <+: e.1 → e.1 = q := by
  intro e he hp
  rcases Nat.lt_or_ge q.length e.1.length with h | h
  · exfalso
    obtain ⟨t, ht⟩ := hp
    cases t with
    | nil => rw [← ht] at h; simp at h
    | cons x t =>
      have hp2 : q ++ [x] <+: e.1 := ⟨t, by rw [← ht]; simp⟩
      obtain ⟨n, hn⟩ := closed w (e.1.length - (q ++ [x]).length) (q ++ [x]) e he hp2 (by have := hp2.length_le; omega) (by simp)
      have := mem_children.2 ⟨n, hn, rfl⟩
      rw [hc] at this; simp at this
  · exact (hp.eq_of_length_le h).symm

/-- nor where nothing is -/
theorem below_none {fs : Fs} (w : Wf fs) {q : Path} (hf : get fs q = none) : ∀ e ∈ fs, ¬ q <+: e.1 := by
  intro e he hp
  have hq : q ≠ [] := by rintro rfl; simp [get_nil] at hf
  obtain ⟨n, hn⟩ := closed w (e.1.length - q.length) q e he hp (by have := hp.length_le; omega) hq
  rw [mem_get w hn] at hf; simp at hf

theorem del_eq_cut {fs : Fs} {q : Path} (h : ∀ e ∈ fs, q <+: e.1 → e.1 = q) : del fs q = cut fs q := by
  unfold del cut
  apply List.filter_congr
  intro e he
  by_cases h1 : q <+: e.1
  · rw [h e he h1]; simp
  · have : e.1 ≠ q := by rintro rfl; exact h1 (List.prefix_refl _)
    simp [h1, this]

/-! ## Names -/

theorem splitGo_append (s t cur : Str) : splitGo (s ++ 47 :: t) cur = splitGo s cur ++ splitGo t [] := by
  induction s generalizing cur with
  | nil => simp [splitGo]; split <;> simp
  | cons c s ih =>
    simp only [List.cons_append, splitGo]
    split
    · split <;> simp [ih]
    · exact ih _

theorem comps_append (s t : Str) : comps (s ++ 47 :: t) = comps s ++ comps t := splitGo_append s t []

theorem splitGo_plain (s cur : Str) (h : 47 ∉ s) (h2 : cur ++ s ≠ []) : splitGo s cur = [cur ++ s] := by
  induction s generalizing cur with
  | nil => simp [splitGo] at *; exact h2
  | cons c s ih =>
    simp only [List.mem_cons, not_or] at h
    simp only [splitGo]
    rw [if_neg (fun h' => h.1 h'.symm), ih _ h.2 (by simp)]
    simp

theorem comps_plain (s : Str) (h : 47 ∉ s) (h2 : s ≠ []) : comps s = [s] := by
  unfold comps; rw [splitGo_plain s [] h (by simpa using h2)]; rfl

theorem splitGo_nm (s cur : Str) (hc : 47 ∉ cur) : ∀ x ∈ splitGo s cur, x ≠ [] ∧ 47 ∉ x := by
  induction s generalizing cur with
  | nil =>
    intro x hx
    simp only [splitGo] at hx
    split at hx
    · simp at hx
    · simp at hx; subst hx; exact ⟨by assumption, hc⟩
  | cons c s ih =>
    intro x hx
    simp only [splitGo] at hx
    split at hx
    · split at hx
      · exact ih [] (by simp) x hx
      · simp only [List.mem_cons] at hx
        rcases hx with rfl | hx
        · exact ⟨by assumption, hc⟩
        · exact ih [] (by simp) x hx
    · refine ih _ ?_ x hx
      simp only [List.mem_append, List.mem_singleton, not_or]
      exact ⟨hc, by omega⟩

theorem comps_nm (s : Str) : ∀ x ∈ comps s, x ≠ [] ∧ 47 ∉ x := splitGo_nm s [] (by simp)

/-! ## Renaming -/

/-- The tree after a rename, as `sysRename` makes it. -/
def moved (fs : Fs) (a b : Path) : Fs := (fs.filter fun e => e.1 != b).map fun e => if a <+: e.1 then (b ++ e.1.drop a.length, e.2) else e

theorem find_congr {l : List α} {f g : α → Bool} (h : ∀ e ∈ l, f e = g e) : l.find? f = l.find? g := by
  induction l with
  | nil => rfl
  | cons a l ih =>
    have ha := h a (by simp)
    have hl := ih (fun e he => h e (by simp [he]))
    cases hg : g a
    · rw [List.find?_cons_of_neg (by rw [ha, hg]; simp), List.find?_cons_of_neg (by rw [hg]; simp), hl]
    · rw [List.find?_cons_of_pos (by rw [ha, hg]), List.find?_cons_of_pos hg]

theorem get_moved {fs : Fs} {a b : Path} (ha : a ≠ []) (hb : b ≠ []) (hab : ¬ a <+: b) (hfree : ∀ e ∈ fs, b <+: e.1 → e.1 = b) (q : Path) :
    get (moved fs a b) q = if b <+: q then get fs (a ++ q.drop b.length) else if a <+: q then none else get fs q := by
  by_cases hq : q = []
  · subst hq
    rw [if_neg (by simpa using hb), if_neg (by simpa using ha), get_nil, get_nil]
  have hget : get (moved fs a b) q = ((fs.filter fun e => e.1 != b).find? (fun e => (if a <+: e.1 then b ++ e.1.drop a.length else e.1) == q)).map (·.2) := by
    unfold get moved
    rw [if_neg hq, List.find?_map, Option.map_map]
    have : ((fun x : Path × Node => x.1 == q) ∘ fun e : Path × Node => if a <+: e.1 then (b ++ e.1.drop a.length, e.2) else e)
        = fun e => (if a <+: e.1 then b ++ e.1.drop a.length else e.1) == q := by
      funext e; simp only [Function.comp]; split <;> rfl
    rw [this]
    congr 1
    funext e; simp only [Function.comp]; split <;> rfl
  rw [hget]
  by_cases h1 : b <+: q
  · rw [if_pos h1]
    obtain ⟨r, rfl⟩ := h1
    rw [List.drop_left]
    have hne : a ++ r ≠ [] := by simp [ha]
    have : ∀ e ∈ fs.filter (fun e => e.1 != b), ((if a <+: e.1 then b ++ e.1.drop a.length else e.1) == b ++ r) = (e.1 == a ++ r) := by
      intro e he
      have he' := List.mem_filter.1 he
      by_cases h2 : a <+: e.1
      · rw [if_pos h2]
        obtain ⟨u, hu⟩ := h2
        rw [← hu, List.drop_left]
        by_cases hur : u = r
        · subst hur; simp
        · rw [beq_false_of_ne (fun h => hur (List.append_cancel_left h)), beq_false_of_ne (fun h => hur (List.append_cancel_left h))]
      · rw [if_neg h2]
        have n1 : e.1 ≠ b ++ r := by
          intro h3
          have := hfree e he'.1 ⟨r, h3.symm⟩
          simp [this] at he'
        have n2 : e.1 ≠ a ++ r := by intro h3; exact h2 ⟨r, h3.symm⟩
        rw [beq_false_of_ne n1, beq_false_of_ne n2]
    rw [find_congr this, List.find?_filter]
    unfold get
    rw [if_neg hne]
    congr 1
    congr 1
    funext e
    by_cases he : e.1 = a ++ r
    · have : a ++ r ≠ b := by intro h3; exact hab ⟨r, h3⟩
      simp [he, this]
    · simp [he]
  · rw [if_neg h1]
    have : ∀ e ∈ fs.filter (fun e => e.1 != b), ((if a <+: e.1 then b ++ e.1.drop a.length else e.1) == q) = (decide (¬ a <+: q) && (e.1 == q)) := by
      intro e he
      by_cases h2 : a <+: e.1
      · rw [if_pos h2]
        have n1 : b ++ e.1.drop a.length ≠ q := by intro h3; exact h1 ⟨_, h3⟩
        by_cases h4 : e.1 = q
        · rw [← h4] at n1 ⊢
          rw [beq_false_of_ne n1]; simp [h2]
        · rw [beq_false_of_ne n1]; simp [h4]
      · rw [if_neg h2]
        by_cases h4 : e.1 = q
        · subst h4; simp [h2]
        · simp [h4]
    rw [find_congr this]
    by_cases h2 : a <+: q
    · rw [if_pos h2, Option.map_eq_none_iff, List.find?_eq_none]
      intro e _
      simp [h2]
    · rw [if_neg h2, List.find?_filter]
      unfold get
      rw [if_neg hq]
      congr 1
      congr 1
      funext e
      by_cases he : e.1 = q
      · have : q ≠ b := by rintro rfl; exact h1 (List.prefix_refl _)
        simp [he, this, h2]
      · simp [he]

theorem wf_moved {fs : Fs} (w : Wf fs) {a b : Path} (ha : a ≠ []) (hb : b ≠ []) (hab : ¬ a <+: b) (hfree : ∀ e ∈ fs, b <+: e.1 → e.1 = b)
    (hbn : ∀ x ∈ b, x ≠ [] ∧ 47 ∉ x) (hpar : get fs b.dropLast = some .dir) : Wf (moved fs a b) := by
  refine ⟨?_, ?_, ?_, ?_⟩
  · unfold moved
    rw [List.map_map, List.Nodup, List.pairwise_map]
    have hn := w.nodup
    rw [List.Nodup, List.pairwise_map] at hn
    have hn2 := hn.sublist (List.filter_sublist (p := fun e : Path × Node => e.1 != b))
    refine List.Pairwise.imp_of_mem ?_ hn2
    intro x y hx hy hxy
    have hx' := List.mem_filter.1 hx
    have hy' := List.mem_filter.1 hy
    simp only [Function.comp]
    by_cases h1 : a <+: x.1 <;> by_cases h2 : a <+: y.1
    · rw [if_pos h1, if_pos h2]
      obtain ⟨u, hu⟩ := h1
      obtain ⟨v, hv⟩ := h2
      intro h
      simp only at h
      rw [← hu, ← hv, List.drop_left, List.drop_left] at h
      exact hxy (by rw [← hu, ← hv, List.append_cancel_left h])
    · rw [if_pos h1, if_neg h2]
      intro h
      have := hfree y hy'.1 ⟨_, h⟩
      simp [this] at hy'
    · rw [if_neg h1, if_pos h2]
      intro h
      have := hfree x hx'.1 ⟨_, h.symm⟩
      simp [this] at hx'
    · rw [if_neg h1, if_neg h2]; exact hxy
  · intro e he
    obtain ⟨e0, he0, rfl⟩ := List.mem_map.1 he
    split
    · simp [hb]
    · exact w.ne _ (memf he0)
  · intro e he
    obtain ⟨e0, he0, rfl⟩ := List.mem_map.1 he
    have hm := List.mem_filter.1 he0
    rw [get_moved ha hb hab hfree]
    by_cases h1 : a <+: e0.1
    · rw [if_pos h1]
      obtain ⟨u, hu⟩ := h1
      simp only [← hu, List.drop_left]
      by_cases hu0 : u = []
      · subst hu0
        rw [List.append_nil, if_neg, if_neg]
        · exact hpar
        · intro h; exact hab (h.trans (List.dropLast_prefix _))
        · intro h
          have := h.length_le
          have hl : 0 < b.length := List.length_pos_iff.2 hb
          simp at this; omega
      · rw [List.dropLast_append_of_ne_nil hu0, if_pos ⟨_, rfl⟩, List.drop_left]
        have := w.par e0 hm.1
        rw [← hu, List.dropLast_append_of_ne_nil hu0] at this
        exact this
    · rw [if_neg h1, if_neg, if_neg]
      · exact w.par e0 hm.1
      · intro h; exact h1 (h.trans (List.dropLast_prefix _))
      · intro h
        have := hfree e0 hm.1 (h.trans (List.dropLast_prefix _))
        simp [this] at hm
  · intro e he
    obtain ⟨e0, he0, rfl⟩ := List.mem_map.1 he
    have hm := memf he0
    split
    · intro x hx
      simp only [List.mem_append] at hx
      rcases hx with hx | hx
      · exact hbn x hx
      · exact w.nm e0 hm x (List.mem_of_mem_drop hx)
    · exact w.nm e0 hm

end Verif.PortFile
