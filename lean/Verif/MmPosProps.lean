import Verif.MmPos

/-! Properties of `MmPos`: C184. -/

namespace Verif.MmPos

/-! ## Specification -/

/-- Whether recording is on, and the blocks obtained while it was on and not given back since. -/
abbrev Live := Bool × List Blk

def liveStep (l : Live) : Op → Live
  | .alloc b => (l.1, if l.1 then b :: l.2 else l.2)
  | .free p => (l.1, l.2.filter (fun b => b.ptr ≠ p))
  | .realloc p b => (l.1, if l.1 then b :: l.2.filter (fun b => b.ptr ≠ p) else l.2.filter (fun b => b.ptr ≠ p))
  | .reallocFail _ => l
  | .mmInit => (true, l.2)
  | .mmFini => (false, [])

def live (ops : List Op) : Live := ops.foldl liveStep (false, [])

/-- The blocks of `L` obtained at the call site `k`. -/
def blocksAt (L : List Blk) (k : Site) : List Blk := L.filter (fun b => b.func = some k.1 ∧ b.line = k.2)

def total (L : List Blk) : Nat := (L.map (·.size)).sum

/-! ## The comparator -/

theorem strcmp_eq : ∀ a b, strcmp a b = 0 ↔ a = b
  | [], [] => by simp [strcmp]
  | [], _ :: _ => by simp [strcmp]
  | _ :: _, [] => by simp [strcmp]
  | x :: xs, y :: ys => by
    have ih := strcmp_eq xs ys
    simp only [strcmp]
    split
    · simp; intro h; omega
    · split
      · simp; intro h; omega
      · have : x = y := by omega
        subst this; simp [ih]

theorem strcmp_swap : ∀ a b, strcmp a b = - strcmp b a
  | [], [] => by simp [strcmp]
  | [], _ :: _ => by simp [strcmp]
  | _ :: _, [] => by simp [strcmp]
  | x :: xs, y :: ys => by
    have ih := strcmp_swap xs ys
    simp only [strcmp]
    by_cases h1 : x < y
    · rw [if_pos h1, if_neg (by omega), if_pos h1]
    · by_cases h2 : y < x
      · rw [if_neg h1, if_pos h2, if_pos h2]; rfl
      · rw [if_neg h1, if_neg h2, if_neg h2, if_neg h1, ih]

theorem strcmp_trans : ∀ a b c, strcmp a b < 0 → strcmp b c < 0 → strcmp a c < 0
  | [], [], _ => by simp [strcmp]
  | [], _ :: _, [] => by simp [strcmp]
  | [], _ :: _, _ :: _ => by simp [strcmp]
  | _ :: _, [], _ => by simp [strcmp]
  | _ :: _, _ :: _, [] => by simp [strcmp]
  | x :: xs, y :: ys, z :: zs => by
    have ih := strcmp_trans xs ys zs
    simp only [strcmp]
    by_cases h1 : x < y <;> by_cases h2 : y < x <;> by_cases h3 : y < z <;> by_cases h4 : z < y <;> by_cases h5 : x < z <;> by_cases h6 : z < x <;>
      simp_all <;> omega

theorem posCmp_eq (a b : Site) : posCmp a b = 0 ↔ a = b := by
  have h := strcmp_eq a.1 b.1
  unfold posCmp
  constructor
  · intro h0
    by_cases h1 : strcmp a.1 b.1 ≠ 0
    · rw [if_pos h1] at h0; split at h0 <;> omega
    · rw [if_neg h1] at h0
      have e1 : a.1 = b.1 := h.1 (by omega)
      by_cases h2 : a.2 = b.2
      · exact Prod.ext e1 h2
      · rw [if_neg h2] at h0; split at h0 <;> omega
  · intro e
    rw [if_neg (by rw [Decidable.not_not, h, e]), if_pos (by rw [e])]

theorem posCmp_lt (a b : Site) : posCmp a b < 0 ↔ strcmp a.1 b.1 < 0 ∨ (a.1 = b.1 ∧ a.2 < b.2) := by
  have h := strcmp_eq a.1 b.1
  unfold posCmp
  by_cases h1 : strcmp a.1 b.1 ≠ 0
  · rw [if_pos h1]
    have hne : a.1 ≠ b.1 := fun e => h1 (h.2 e)
    split <;> simp [hne] <;> omega
  · rw [if_neg h1]
    have e : a.1 = b.1 := h.1 (by omega)
    simp only [e, true_and]
    rw [e] at h1
    split
    · omega
    · split <;> omega

theorem posCmp_gt (a b : Site) : posCmp a b > 0 ↔ posCmp b a < 0 := by
  have h := strcmp_eq a.1 b.1
  have hs := strcmp_swap a.1 b.1
  rw [posCmp_lt]
  unfold posCmp
  by_cases h1 : strcmp a.1 b.1 ≠ 0
  · rw [if_pos h1]
    have hne : b.1 ≠ a.1 := fun e => h1 (h.2 e.symm)
    split <;> simp [hne] <;> omega
  · rw [if_neg h1]
    have e : a.1 = b.1 := h.1 (by omega)
    simp only [e, true_and]
    rw [e] at h1
    split
    · omega
    · split <;> omega

theorem posCmp_trans (a b c : Site) (h1 : posCmp a b < 0) (h2 : posCmp b c < 0) : posCmp a c < 0 := by
  rw [posCmp_lt] at *
  rcases h1 with h1 | ⟨e1, h1⟩ <;> rcases h2 with h2 | ⟨e2, h2⟩
  · exact Or.inl (strcmp_trans _ _ _ h1 h2)
  · rw [← e2]; exact Or.inl h1
  · rw [e1]; exact Or.inl h2
  · exact Or.inr ⟨e1.trans e2, by omega⟩

/-- C184 (order). The comparator of the table orders the call sites totally: it is 0 exactly for the same function and line, changes its sign when the sites are swapped, and is transitive. -/
theorem C184_order (a b c : Site) : (posCmp a b = 0 ↔ a = b) ∧ (posCmp a b > 0 ↔ posCmp b a < 0) ∧ (posCmp a b < 0 → posCmp b c < 0 → posCmp a c < 0) :=
  ⟨posCmp_eq a b, posCmp_gt a b, posCmp_trans a b c⟩

example : posCmp (bytes "ab", 3) (bytes "b", 1) < 0 ∧ posCmp (bytes "ab", 3) (bytes "ab", 1) > 0 := by decide

/-! ## The table -/

def Sorted (t : List Pos) : Prop := t.Pairwise (fun x y => posCmp x.site y.site < 0)

/-- The table says of each call site how many blocks of `L` it has, and how many bytes. -/
def Agrees (t : List Pos) (L : List Blk) : Prop :=
  ∀ p : Pos, p ∈ t ↔ p.site.2 ≠ 0 ∧ blocksAt L p.site ≠ [] ∧ p.cnts = (blocksAt L p.site).length ∧ p.size = total (blocksAt L p.site)

theorem mem_posInsert (t : List Pos) (e p : Pos) : p ∈ posInsert t e ↔ p = e ∨ p ∈ t := by
  induction t with
  | nil => simp [posInsert]
  | cons x xs ih =>
    simp only [posInsert]
    split
    · simp
    · simp only [List.mem_cons, ih]; grind

theorem sorted_posInsert (t : List Pos) (e : Pos) (hs : Sorted t) (hn : ∀ x ∈ t, x.site ≠ e.site) : Sorted (posInsert t e) := by
  induction t with
  | nil => simp [posInsert, Sorted]
  | cons x xs ih =>
    simp only [posInsert]
    unfold Sorted at hs ih ⊢
    rw [List.pairwise_cons] at hs
    split
    · rename_i hg
      rw [posCmp_gt] at hg
      rw [List.pairwise_cons, List.pairwise_cons]
      refine ⟨fun y hy => ?_, hs⟩
      rcases List.mem_cons.1 hy with rfl | hy
      · exact hg
      · exact posCmp_trans _ _ _ hg (hs.1 y hy)
    · rename_i hg
      rw [List.pairwise_cons]
      refine ⟨fun y hy => ?_, ih hs.2 (fun y hy => hn y (List.mem_cons_of_mem _ hy))⟩
      rw [mem_posInsert] at hy
      rcases hy with rfl | hy
      · have := hn x List.mem_cons_self
        have h0 := posCmp_eq x.site y.site
        have : posCmp x.site y.site ≠ 0 := fun h => this (h0.1 h)
        omega
      · exact hs.1 y hy

theorem mem_posSet (t : List Pos) (k : Site) (f : Pos → Pos) (p : Pos) : p ∈ posSet t k f ↔ ∃ x ∈ t, p = if x.site = k then f x else x := by
  simp only [posSet, List.mem_map]
  constructor
  · rintro ⟨x, hx, rfl⟩
    exact ⟨x, hx, by simp only [posCmp_eq]⟩
  · rintro ⟨x, hx, rfl⟩
    exact ⟨x, hx, by simp only [posCmp_eq]⟩

theorem sorted_posSet (t : List Pos) (k : Site) (f : Pos → Pos) (hf : ∀ x, (f x).site = x.site) (hs : Sorted t) : Sorted (posSet t k f) := by
  unfold Sorted posSet
  rw [List.pairwise_map]
  refine hs.imp ?_
  intro a b h
  have e : ∀ x : Pos, (if posCmp x.site k = 0 then f x else x).site = x.site := fun x => by split <;> simp [hf]
  rw [e, e]; exact h

theorem mem_posErase (t : List Pos) (k : Site) (p : Pos) : p ∈ posErase t k ↔ p ∈ t ∧ p.site ≠ k := by
  simp [posErase, posCmp_eq]

theorem sorted_posErase (t : List Pos) (k : Site) (hs : Sorted t) : Sorted (posErase t k) := hs.filter _

theorem posFind_none (t : List Pos) (k : Site) : posFind t k = none ↔ ∀ x ∈ t, x.site ≠ k := by
  simp [posFind, posCmp_eq]

theorem posFind_some (t : List Pos) (k : Site) (e : Pos) (h : posFind t k = some e) : e ∈ t ∧ e.site = k := by
  refine ⟨List.mem_of_find?_eq_some h, ?_⟩
  have := List.find?_some h
  simpa [posCmp_eq] using this

theorem sorted_uniq (t : List Pos) (hs : Sorted t) (x y : Pos) (hx : x ∈ t) (hy : y ∈ t) (e : x.site = y.site) : x = y := by
  induction t with
  | nil => cases hx
  | cons a as ih =>
    unfold Sorted at hs
    rw [List.pairwise_cons] at hs
    have irr : ∀ z w : Pos, z.site = w.site → ¬ posCmp z.site w.site < 0 := by
      intro z w h
      rw [(posCmp_eq z.site w.site).2 h]; omega
    rcases List.mem_cons.1 hx with h1 | h1 <;> rcases List.mem_cons.1 hy with h2 | h2
    · rw [h1, h2]
    · exact absurd (h1 ▸ hs.1 y h2) (irr _ _ e)
    · exact absurd (h2 ▸ hs.1 x h1) (irr _ _ e.symm)
    · exact ih hs.2 h1 h2

theorem length_posErase (t : List Pos) (hs : Sorted t) (k : Site) (e : Pos) (he : e ∈ t) (hk : e.site = k) : (posErase t k).length + 1 = t.length := by
  induction t with
  | nil => cases he
  | cons a as ih =>
    have hs' := hs
    unfold Sorted at hs'
    rw [List.pairwise_cons] at hs'
    by_cases ha : a.site = k
    · have h0 : posErase as k = as := by
        refine List.filter_eq_self.2 (fun x hx => ?_)
        have := hs'.1 x hx
        have hne : posCmp x.site k ≠ 0 := by
          intro h0
          rw [(posCmp_eq _ _).1 h0, ← ha, (posCmp_eq _ _).2 rfl] at this
          omega
        simpa using hne
      have : posErase (a :: as) k = posErase as k := by simp [posErase, posCmp_eq, ha]
      rw [this, h0]; rfl
    · have : posErase (a :: as) k = a :: posErase as k := by simp [posErase, posCmp_eq, ha]
      rw [this]
      rcases List.mem_cons.1 he with rfl | he
      · exact absurd hk ha
      · simp only [List.length_cons, ih hs'.2 he]

theorem length_posInsert (t : List Pos) (e : Pos) : (posInsert t e).length = t.length + 1 := by
  induction t with
  | nil => rfl
  | cons x xs ih => simp only [posInsert]; split <;> simp [ih]

theorem length_posSet (t : List Pos) (k : Site) (f : Pos → Pos) : (posSet t k f).length = t.length := by simp [posSet]

/-! ## The blocks of a site -/

theorem blocksAt_cons (b : Blk) (L : List Blk) (k : Site) : blocksAt (b :: L) k = if b.func = some k.1 ∧ b.line = k.2 then b :: blocksAt L k else blocksAt L k := by
  simp only [blocksAt, List.filter_cons]
  by_cases h : b.func = some k.1 ∧ b.line = k.2 <;> simp [h]

theorem siteOf_some (b : Blk) (k : Site) (h : siteOf b = some k) : b.func = some k.1 ∧ b.line = k.2 ∧ k.2 ≠ 0 := by
  unfold siteOf at h
  split at h
  · rename_i f hf
    by_cases hl : b.line ≠ 0
    · rw [if_pos hl] at h; cases h; exact ⟨hf, rfl, hl⟩
    · rw [if_neg hl] at h; cases h
  · cases h

theorem siteOf_none (b : Blk) (h : siteOf b = none) (k : Site) (hk : k.2 ≠ 0) : ¬ (b.func = some k.1 ∧ b.line = k.2) := by
  rintro ⟨h1, h2⟩
  simp [siteOf, h1, h2, hk] at h

theorem total_cons (b : Blk) (L : List Blk) : total (b :: L) = b.size + total L := by simp [total]

theorem at_some (b : Blk) (L : List Blk) (k k' : Site) (h : siteOf b = some k) : blocksAt (b :: L) k' = if k' = k then b :: blocksAt L k' else blocksAt L k' := by
  obtain ⟨h1, h2, _⟩ := siteOf_some b k h
  rw [blocksAt_cons]
  by_cases e : k' = k
  · subst e; rw [if_pos ⟨h1, h2⟩, if_pos rfl]
  · rw [if_neg e, if_neg]
    rintro ⟨g1, g2⟩
    rw [h1] at g1
    exact e (Prod.ext (Option.some.inj g1).symm (by rw [← g2, h2]))

theorem agrees_none (t : List Pos) (L : List Blk) (b : Blk) (h : siteOf b = none) : Agrees t (b :: L) ↔ Agrees t L := by
  unfold Agrees
  constructor
  · intro ha p
    rw [ha p]
    by_cases hp : p.site.2 = 0
    · simp [hp]
    · rw [blocksAt_cons, if_neg (siteOf_none b h _ hp)]
  · intro ha p
    rw [ha p]
    by_cases hp : p.site.2 = 0
    · simp [hp]
    · rw [blocksAt_cons, if_neg (siteOf_none b h _ hp)]

theorem agrees_found (t : List Pos) (L : List Blk) (b : Blk) (k : Site) (e : Pos) (h : siteOf b = some k) (ha : Agrees t L) (hf : posFind t k = some e) :
    Agrees (posSet t k (fun p => { p with cnts := p.cnts + 1, size := p.size + b.size })) (b :: L) := by
  obtain ⟨he, hek⟩ := posFind_some t k e hf
  intro p
  rw [mem_posSet, at_some b L k p.site h]
  constructor
  · rintro ⟨x, hx, rfl⟩
    have hx' := (ha x).1 hx
    by_cases hk : x.site = k
    · simp only [hk, if_true]
      rw [hk] at hx'
      refine ⟨hx'.1, by simp, ?_, ?_⟩
      · simp [hx'.2.2.1]
      · rw [total_cons, hx'.2.2.2]; omega
    · simp only [hk, if_false]
      exact hx'
  · rintro ⟨g1, g2, g3, g4⟩
    by_cases hk : p.site = k
    · rw [if_pos hk] at g2 g3 g4
      refine ⟨{ p with cnts := p.cnts - 1, size := p.size - b.size }, ?_, ?_⟩
      · rw [ha]
        have := ((ha e).1 he).2.1
        rw [hek] at this
        simp only [List.length_cons, total_cons] at g3 g4
        exact ⟨g1, by simp only [hk]; exact this, by simp only; omega, by simp only; omega⟩
      · rw [total_cons] at g4
        simp only [hk, if_true]
        obtain ⟨ps, pc, pn⟩ := p
        simp only [Pos.mk.injEq] at g4 hk ⊢
        exact ⟨hk, by omega, by omega⟩
    · rw [if_neg hk] at g2 g3 g4
      exact ⟨p, (ha p).2 ⟨g1, g2, g3, g4⟩, by rw [if_neg hk]⟩

theorem agrees_new (t : List Pos) (L : List Blk) (b : Blk) (k : Site) (h : siteOf b = some k) (ha : Agrees t L) (hf : posFind t k = none) :
    Agrees (posInsert t ⟨k, 0 + 1, 0 + b.size⟩) (b :: L) := by
  have hn := (posFind_none t k).1 hf
  have hk0 := (siteOf_some b k h).2.2
  have hL : blocksAt L k = [] := by
    refine Decidable.byContradiction (fun hc => ?_)
    exact hn ⟨k, (blocksAt L k).length, total (blocksAt L k)⟩ ((ha _).2 ⟨hk0, hc, rfl, rfl⟩) rfl
  intro p
  rw [mem_posInsert, at_some b L k p.site h]
  by_cases hk : p.site = k
  · rw [if_pos hk, hk, hL]
    constructor
    · rintro (rfl | hp)
      · exact ⟨hk0, by simp, by simp, by simp [total]⟩
      · exact absurd hk (hn p hp)
    · rintro ⟨_, _, g3, g4⟩
      left
      cases p; simp [total] at *; exact ⟨hk, g3, g4⟩
  · rw [if_neg hk, ← ha p]
    constructor
    · rintro (rfl | hp)
      · exact absurd rfl hk
      · exact hp
    · exact Or.inr

theorem agrees_dec (t : List Pos) (L : List Blk) (b : Blk) (k : Site) (e : Pos) (h : siteOf b = some k) (ha : Agrees t (b :: L)) (hf : posFind t k = some e)
    (hc : e.cnts - 1 ≠ 0) : Agrees (posSet t k (fun p => { p with cnts := p.cnts - 1, size := p.size - b.size })) L := by
  obtain ⟨he, hek⟩ := posFind_some t k e hf
  have hb : ∀ k', blocksAt (b :: L) k' = if k' = k then b :: blocksAt L k' else blocksAt L k' := fun k' => at_some b L k k' h
  have he' := (ha e).1 he
  rw [hb, if_pos hek, hek] at he'
  have hne : blocksAt L k ≠ [] := by
    intro h0
    rw [h0] at he'
    have := he'.2.2.1
    simp at this; omega
  intro p
  rw [mem_posSet]
  constructor
  · rintro ⟨x, hx, rfl⟩
    have hx' := (ha x).1 hx
    rw [hb] at hx'
    by_cases hk : x.site = k
    · rw [if_pos hk, total_cons, hk] at hx'
      simp only [hk, if_true]
      have h3 := hx'.2.2.1
      have h4 := hx'.2.2.2
      simp only [List.length_cons] at h3
      exact ⟨hx'.1, hne, by omega, by omega⟩
    · rw [if_neg hk] at hx'
      simp only [hk, if_false]
      exact hx'
  · rintro ⟨g1, g2, g3, g4⟩
    by_cases hk : p.site = k
    · refine ⟨{ p with cnts := p.cnts + 1, size := p.size + b.size }, ?_, ?_⟩
      · rw [ha, hb]
        simp only [hk, if_true, List.length_cons, total_cons]
        rw [hk] at g1 g3 g4
        exact ⟨g1, by simp, by omega, by omega⟩
      · simp only [hk, if_true]
        cases p; simp at *; omega
    · refine ⟨p, ?_, by rw [if_neg hk]⟩
      rw [ha, hb, if_neg hk]
      exact ⟨g1, g2, g3, g4⟩

theorem agrees_last (t : List Pos) (L : List Blk) (b : Blk) (k : Site) (e : Pos) (h : siteOf b = some k) (ha : Agrees t (b :: L)) (hf : posFind t k = some e)
    (hc : e.cnts - 1 = 0) : Agrees (posErase t k) L := by
  obtain ⟨he, hek⟩ := posFind_some t k e hf
  have hb : ∀ k', blocksAt (b :: L) k' = if k' = k then b :: blocksAt L k' else blocksAt L k' := fun k' => at_some b L k k' h
  have he' := (ha e).1 he
  rw [hb, if_pos hek, hek] at he'
  have h0 : blocksAt L k = [] := by
    have := he'.2.2.1
    simp only [List.length_cons] at this
    exact List.length_eq_zero_iff.1 (by omega)
  intro p
  rw [mem_posErase, ha p, hb]
  by_cases hk : p.site = k
  · rw [if_pos hk, hk, h0]; simp
  · rw [if_neg hk]; simp [hk]

theorem agrees_find (t : List Pos) (L : List Blk) (b : Blk) (k : Site) (h : siteOf b = some k) (ha : Agrees t (b :: L)) : posFind t k ≠ none := by
  intro hf
  have hn := (posFind_none t k).1 hf
  refine hn ⟨k, (blocksAt (b :: L) k).length, total (blocksAt (b :: L) k)⟩ ((ha _).2 ⟨(siteOf_some b k h).2.2, ?_, rfl, rfl⟩) rfl
  show blocksAt (b :: L) k ≠ []
  rw [at_some b L k k h, if_pos rfl]; simp

/-! ## The invariant -/

def bytesOf (ov : Ov) (L : List Blk) (n : Nat) : Int := ((L.map (fun b => b.size + ov.ptrNode)).sum + n * ov.posNode : Nat)

structure Inv (ov : Ov) (s : St) (l : Live) : Prop where
  on : s.inited = l.1
  ptrs : s.ptrs = l.2
  off : l.1 = false → l.2 = []
  nodup : (l.2.map Blk.ptr).Nodup
  halNodup : s.hal.Nodup
  sub : ∀ b ∈ l.2, b.ptr ∈ s.hal
  zero : 0 ∉ s.hal
  sorted : Sorted s.pos
  agrees : Agrees s.pos l.2
  used : s.used = bytesOf ov l.2 s.pos.length

theorem agrees_nil : Agrees [] [] := by intro p; simp [blocksAt]

theorem agrees_perm (t : List Pos) (L L' : List Blk) (hp : L.Perm L') : Agrees t L ↔ Agrees t L' := by
  unfold Agrees
  have e : ∀ k, (blocksAt L k).Perm (blocksAt L' k) := fun k => hp.filter _
  refine forall_congr' (fun p => ?_)
  have h1 := (e p.site).length_eq
  have h2 : total (blocksAt L p.site) = total (blocksAt L' p.site) := ((e p.site).map _).sum_nat
  have h3 : blocksAt L p.site = [] ↔ blocksAt L' p.site = [] := by
    rw [← List.length_eq_zero_iff, ← List.length_eq_zero_iff, h1]
  rw [h1, h2, Ne, Ne, h3]

theorem insert_inv (ov : Ov) (s : St) (l : Live) (b : Blk) (hi : Inv ov s l) (hb : b.ptr ≠ 0) (hin : b.ptr ∈ s.hal) (hn : b.ptr ∉ l.2.map Blk.ptr) :
    Inv ov (insertPtr ov s b) (l.1, if l.1 then b :: l.2 else l.2) := by
  unfold insertPtr
  by_cases h0 : s.inited = false
  · rw [if_pos h0]
    have : l.1 = false := by rw [← hi.on]; exact h0
    have e : (l.1, if l.1 then b :: l.2 else l.2) = l := by simp [this]; cases l; simp_all
    rw [e]; exact hi
  · rw [if_neg h0, if_neg hb]
    have h1 : l.1 = true := by rw [← hi.on]; simpa using h0
    have on := hi.on; have ptrs := hi.ptrs; have used := hi.used
    simp only [h1, if_true]
    have nd : ((b :: l.2).map Blk.ptr).Nodup := by
      rw [List.map_cons, List.nodup_cons]; exact ⟨hn, hi.nodup⟩
    have sub : ∀ c ∈ b :: l.2, c.ptr ∈ s.hal := by
      intro c hc
      rcases List.mem_cons.1 hc with rfl | hc
      · exact hin
      · exact hi.sub c hc
    split
    · rename_i hsn
      refine ⟨by simp [on, h1], by simp [ptrs], by simp, nd, hi.halNodup, sub, hi.zero, hi.sorted, (agrees_none _ _ _ hsn).2 hi.agrees, ?_⟩
      simp only [used, bytesOf, List.map_cons, List.sum_cons]; omega
    · rename_i k hsk
      split
      · rename_i e hf
        refine ⟨by simp [on, h1], by simp [ptrs], by simp, nd, hi.halNodup, sub, hi.zero, sorted_posSet _ _ _ (fun _ => rfl) hi.sorted, agrees_found _ _ _ _ e hsk hi.agrees hf, ?_⟩
        simp only [used, bytesOf, List.map_cons, List.sum_cons, length_posSet]; omega
      · rename_i hf
        refine ⟨by simp [on, h1], by simp [ptrs], by simp, nd, hi.halNodup, sub, hi.zero,
          sorted_posInsert _ _ hi.sorted ((posFind_none _ _).1 hf), agrees_new _ _ _ _ hsk hi.agrees hf, ?_⟩
        simp only [used, bytesOf, List.map_cons, List.sum_cons, length_posInsert, Nat.add_mul]; omega

theorem eraseP_eq (L : List Blk) (p : Nat) (hn : (L.map Blk.ptr).Nodup) : L.eraseP (fun b => b.ptr == p) = L.filter (fun b => b.ptr ≠ p) := by
  induction L with
  | nil => rfl
  | cons a as ih =>
    rw [List.map_cons, List.nodup_cons] at hn
    by_cases h : a.ptr = p
    · rw [List.eraseP_cons_of_pos (by simpa using h), List.filter_cons_of_neg (by simp [h])]
      refine (List.filter_eq_self.2 (fun x hx => ?_)).symm
      have : x.ptr ≠ a.ptr := fun e => hn.1 (e ▸ List.mem_map_of_mem hx)
      simpa [h] using this
    · rw [List.eraseP_cons_of_neg (by simpa using h), List.filter_cons_of_pos (by simp [h]), ih hn.2]

theorem perm_eraseP (L : List Blk) (p : Nat) (b : Blk) (h : L.find? (fun b => b.ptr == p) = some b) : L.Perm (b :: L.eraseP (fun b => b.ptr == p)) := by
  induction L with
  | nil => cases h
  | cons a as ih =>
    by_cases ha : a.ptr = p
    · rw [List.find?_cons_of_pos (by simpa using ha)] at h
      cases h
      rw [List.eraseP_cons_of_pos (by simpa using ha)]
    · rw [List.find?_cons_of_neg (by simpa using ha)] at h
      rw [List.eraseP_cons_of_neg (by simpa using ha)]
      exact ((ih h).cons a).trans (List.Perm.swap _ _ _)

/-- `mm_remove_ptr`, before the block leaves the HAL. -/
theorem remove_inv (ov : Ov) (s : St) (l : Live) (p : Nat) (hi : Inv ov s l) : Inv ov (removePtr ov s p) (l.1, l.2.filter (fun b => b.ptr ≠ p)) := by
  have keep : (∀ b ∈ l.2, b.ptr ≠ p) → (l.1, l.2.filter (fun b => b.ptr ≠ p)) = l := by
    intro h
    refine Prod.ext rfl ?_
    exact List.filter_eq_self.2 (fun b hb => by simpa using h b hb)
  unfold removePtr
  by_cases h0 : s.inited = false
  · rw [if_pos h0, keep]
    · exact hi
    · intro b hb
      rw [hi.off (by rw [← hi.on]; exact h0)] at hb; cases hb
  · rw [if_neg h0]
    by_cases hp : p = 0
    · rw [if_pos hp, keep]
      · exact hi
      · intro b hb e
        exact hi.zero (hp ▸ e ▸ hi.sub b hb)
    · rw [if_neg hp]
      split
      · rename_i hf
        rw [keep]
        · exact hi
        · intro b hb e
          rw [hi.ptrs] at hf
          have := List.find?_eq_none.1 hf b hb
          simp [e] at this
      · rename_i b hf
        rw [hi.ptrs] at hf
        have hperm := perm_eraseP _ _ _ hf
        have ag := (agrees_perm _ _ _ hperm).1 hi.agrees
        have eE := eraseP_eq l.2 p hi.nodup
        rw [eE] at hperm ag
        have nd : ((l.2.filter (fun b => b.ptr ≠ p)).map Blk.ptr).Nodup := (List.filter_sublist.map _).nodup hi.nodup
        have sub : ∀ c ∈ l.2.filter (fun b => b.ptr ≠ p), c.ptr ∈ s.hal := fun c hc => hi.sub c (List.mem_filter.1 hc).1
        have off : l.1 = false → l.2.filter (fun b => b.ptr ≠ p) = [] := fun h => by rw [hi.off h]; rfl
        have hu : s.used = bytesOf ov (b :: l.2.filter (fun b => b.ptr ≠ p)) s.pos.length := by
          rw [hi.used]
          simp only [bytesOf]
          rw [(hperm.map (fun b => b.size + ov.ptrNode)).sum_nat]
        have hpt : s.ptrs.eraseP (fun b => b.ptr == p) = l.2.filter (fun b => b.ptr ≠ p) := by rw [hi.ptrs, eE]
        have on := hi.on
        generalize hL : l.2.filter (fun b => b.ptr ≠ p) = L at *
        simp only [bytesOf, List.map_cons, List.sum_cons] at hu
        dsimp only
        split
        · rename_i hsn
          refine ⟨on, hpt, off, nd, hi.halNodup, sub, hi.zero, hi.sorted, (agrees_none _ _ _ hsn).1 ag, ?_⟩
          simp only [bytesOf]; omega
        · rename_i k hsk
          split
          · rename_i hfn
            exact absurd hfn (agrees_find _ _ _ _ hsk ag)
          · rename_i e hfe
            by_cases hc : e.cnts - 1 = 0
            · rw [if_pos hc]
              refine ⟨on, hpt, off, nd, hi.halNodup, sub, hi.zero, sorted_posErase _ _ hi.sorted, agrees_last _ _ _ _ e hsk ag hfe hc, ?_⟩
              obtain ⟨he, hek⟩ := posFind_some _ _ _ hfe
              have hl := length_posErase _ hi.sorted k e he hek
              simp only [bytesOf]
              rw [← hl, Nat.add_mul] at hu
              omega
            · rw [if_neg hc]
              refine ⟨on, hpt, off, nd, hi.halNodup, sub, hi.zero, sorted_posSet _ _ _ (fun _ => rfl) hi.sorted, agrees_dec _ _ _ _ e hsk ag hfe hc, ?_⟩
              simp only [bytesOf, length_posSet]; omega

theorem remove_hal (ov : Ov) (s : St) (p : Nat) : (removePtr ov s p).hal = s.hal := by
  unfold removePtr
  grind

theorem setHal_inv (ov : Ov) (s : St) (l : Live) (h : List Nat) (hi : Inv ov s l) (hn : h.Nodup) (hs : ∀ b ∈ l.2, b.ptr ∈ h) (hz : 0 ∉ h) : Inv ov { s with hal := h } l :=
  ⟨hi.on, hi.ptrs, hi.off, hi.nodup, hn, hs, hz, hi.sorted, hi.agrees, hi.used⟩

theorem erased_inv (ov : Ov) (s : St) (l : Live) (p : Nat) (hi : Inv ov s l) :
    Inv ov { removePtr ov s p with hal := s.hal.erase p } (l.1, l.2.filter (fun b => b.ptr ≠ p)) := by
  refine setHal_inv _ _ _ _ (remove_inv ov s l p hi) (hi.halNodup.erase _) ?_ (fun h => hi.zero (List.mem_of_mem_erase h))
  intro b hb
  obtain ⟨hb1, hb2⟩ := List.mem_filter.1 hb
  exact (List.mem_erase_of_ne (by simpa using hb2)).2 (hi.sub b hb1)

theorem step_inv (ov : Ov) (s s' : St) (l : Live) (op : Op) (hi : Inv ov s l) (h : step ov s op = some s') : Inv ov s' (liveStep l op) := by
  cases op with
  | alloc b =>
    simp only [step] at h
    by_cases hc : b.ptr ≠ 0 ∧ b.ptr ∉ s.hal
    · rw [if_pos hc] at h; cases h
      refine insert_inv ov _ l b ?_ hc.1 (List.mem_cons_self) ?_
      · refine setHal_inv _ _ _ _ hi (List.nodup_cons.2 ⟨hc.2, hi.halNodup⟩) (fun c hc' => List.mem_cons_of_mem _ (hi.sub c hc')) ?_
        intro hz
        rcases List.mem_cons.1 hz with hz | hz
        · exact hc.1 hz.symm
        · exact hi.zero hz
      · intro hm
        obtain ⟨c, hc', he⟩ := List.mem_map.1 hm
        exact hc.2 (he ▸ hi.sub c hc')
    · rw [if_neg hc] at h; cases h
  | free p =>
    simp only [step] at h
    by_cases hc : p = 0 ∨ p ∈ s.hal
    · rw [if_pos hc] at h; cases h
      exact erased_inv ov s l p hi
    · rw [if_neg hc] at h; cases h
  | realloc p b =>
    simp only [step] at h
    by_cases hc : (p = 0 ∨ p ∈ s.hal) ∧ b.ptr ≠ 0 ∧ (b.ptr = p ∨ b.ptr ∉ s.hal)
    · rw [if_pos hc] at h; cases h
      have hi' := erased_inv ov s l p hi
      have hne : b.ptr ∉ s.hal.erase p := by
        intro hm
        rcases hc.2.2 with e | hn
        · rw [e] at hm
          exact (List.Nodup.not_mem_erase hi.halNodup) hm
        · exact hn (List.mem_of_mem_erase hm)
      have := insert_inv ov { removePtr ov s p with hal := b.ptr :: s.hal.erase p } (l.1, l.2.filter (fun b => b.ptr ≠ p)) b ?_ hc.2.1 (List.mem_cons_self) ?_
      · exact this
      · refine setHal_inv _ _ _ _ (remove_inv ov s l p hi) (List.nodup_cons.2 ⟨hne, hi.halNodup.erase _⟩) (fun c hc' => List.mem_cons_of_mem _ (hi'.sub c hc')) ?_
        intro hz
        rcases List.mem_cons.1 hz with hz | hz
        · exact hc.2.1 hz.symm
        · exact hi.zero (List.mem_of_mem_erase hz)
      · intro hm
        obtain ⟨c, hc', he⟩ := List.mem_map.1 hm
        exact hne (he ▸ hi'.sub c hc')
    · rw [if_neg hc] at h; cases h
  | reallocFail p =>
    simp only [step] at h
    split at h
    · cases h; exact hi
    · cases h
  | mmInit =>
    simp only [step] at h
    by_cases hc : s.inited = false
    · rw [if_pos hc] at h; cases h
      have h0 := hi.off (by rw [← hi.on]; exact hc)
      have hp : s.pos = [] := by
        refine List.eq_nil_iff_forall_not_mem.2 (fun p hp => ?_)
        have := ((hi.agrees p).1 hp).2.1
        rw [h0] at this
        exact this rfl
      refine ⟨rfl, hi.ptrs, fun h => (by cases h), hi.nodup, hi.halNodup, hi.sub, hi.zero, hi.sorted, hi.agrees, ?_⟩
      simp [liveStep, h0, hp, bytesOf]
    · rw [if_neg hc] at h; cases h
  | mmFini =>
    simp only [step] at h
    by_cases hc : s.inited = true
    · rw [if_pos hc] at h; cases h
      exact ⟨rfl, rfl, fun _ => rfl, List.nodup_nil, hi.halNodup, fun b hb => (nomatch hb), hi.zero, List.Pairwise.nil, agrees_nil, by simp [bytesOf, liveStep]⟩
    · rw [if_neg hc] at h; cases h

theorem run_inv (ov : Ov) (ops : List Op) (s s' : St) (l : Live) (hi : Inv ov s l) (h : run ov s ops = some s') : Inv ov s' (ops.foldl liveStep l) := by
  induction ops generalizing s l with
  | nil => cases h; exact hi
  | cons op ops ih =>
    simp only [run] at h
    split at h
    · cases h
    · rename_i s1 h1
      exact ih s1 _ (step_inv ov s s1 l op hi h1) h

theorem init_inv (ov : Ov) : Inv ov St.init (false, []) :=
  ⟨rfl, rfl, fun _ => rfl, List.nodup_nil, List.nodup_nil, fun b hb => (nomatch hb), by simp [St.init], List.Pairwise.nil, agrees_nil, by simp [bytesOf, St.init]⟩

/-! ## The claims -/

/-- C184. After any history of calls the table has one entry for each call site (function and line) that has live blocks, and none for others; the entry's count is the number
of the site's live blocks and its size their bytes; and the entries are in the order of function name and line. -/
theorem C184_table (ov : Ov) (ops : List Op) (s : St) (h : run ov St.init ops = some s) :
    (∀ p : Pos, p ∈ s.pos ↔ p.site.2 ≠ 0 ∧ blocksAt (live ops).2 p.site ≠ [] ∧ p.cnts = (blocksAt (live ops).2 p.site).length ∧ p.size = total (blocksAt (live ops).2 p.site)) ∧
    s.pos.Pairwise (fun x y => posCmp x.site y.site < 0) :=
  let hi := run_inv ov ops _ s _ (init_inv ov) h
  ⟨hi.agrees, hi.sorted⟩

/-- C184 (`aosl_memused`). The bytes reported are those of the live blocks, a node for each of them, and a node for each entry of the table. -/
theorem C184_used (ov : Ov) (ops : List Op) (s : St) (h : run ov St.init ops = some s) :
    s.used = (((live ops).2.map (fun b => b.size + ov.ptrNode)).sum + s.pos.length * ov.posNode : Nat) :=
  (run_inv ov ops _ s _ (init_inv ov) h).used

theorem walk_map (ps : List Pos) (i : Nat) : (walk ps i).map (fun l => (l.cnts, l.size, l.func, l.line)) =
    (ps.filter (fun p => !ignored p.site.1)).map (fun p => (p.cnts, p.size % 2 ^ 32, p.site.1, p.site.2)) := by
  induction ps generalizing i with
  | nil => rfl
  | cons p ps ih =>
    simp only [walk]
    by_cases h : ignored p.site.1 = true
    · rw [if_pos h, ih, List.filter_cons_of_neg (by simp [h])]
    · rw [if_neg h, List.filter_cons_of_pos (by simpa using h), List.map_cons, List.map_cons, ih]

theorem walk_index (ps : List Pos) (i : Nat) : (walk ps i).map (·.index) = List.range' i (walk ps i).length := by
  induction ps generalizing i with
  | nil => rfl
  | cons p ps ih =>
    simp only [walk]
    split
    · exact ih i
    · simp [List.range'_succ, ih]

/-- C184 (`aosl_memdump`). While recording is on the dump shows one line for each call site with live blocks, except the sites of the library's own queues and pools, with the number
of blocks and their bytes (the low 32 bits of them); the lines are numbered from 0. -/
theorem C184_dump (ov : Ov) (ops : List Op) (s : St) (h : run ov St.init ops = some s) (hon : (live ops).1 = true) :
    ∃ ls, memdump s = some (s.pos.length, s.used % 2 ^ 32, ls) ∧ ls.map (·.index) = List.range ls.length ∧
    ∀ (c : Int) (n : Nat) (f : List Nat) (l : Int), (c, n, f, l) ∈ ls.map (fun x => (x.cnts, x.size, x.func, x.line)) ↔
      ignored f = false ∧ l ≠ 0 ∧ blocksAt (live ops).2 (f, l) ≠ [] ∧ c = (blocksAt (live ops).2 (f, l)).length ∧ n = total (blocksAt (live ops).2 (f, l)) % 2 ^ 32 := by
  have hi := run_inv ov ops _ s _ (init_inv ov) h
  refine ⟨walk s.pos 0, ?_, ?_, ?_⟩
  · have : s.inited ≠ false := by rw [hi.on]; show (live ops).1 ≠ false; rw [hon]; simp
    simp [memdump, this]
  · rw [walk_index, List.range_eq_range']
  · intro c n f l
    rw [walk_map]
    simp only [List.mem_map, List.mem_filter]
    constructor
    · rintro ⟨p, ⟨hp, hig⟩, he⟩
      cases he
      obtain ⟨h1, h2, h3, h4⟩ := (hi.agrees p).1 hp
      exact ⟨by simpa using hig, h1, h2, h3, by rw [h4]; rfl⟩
    · rintro ⟨h1, h2, h3, rfl, rfl⟩
      exact ⟨⟨(f, l), _, _⟩, ⟨(hi.agrees _).2 ⟨h2, h3, rfl, rfl⟩, by simpa using h1⟩, rfl⟩

theorem strstr_iff (s t : List Nat) : strstr s t = true ↔ ∃ a b, s = a ++ t ++ b := by
  induction s with
  | nil =>
    simp only [strstr, List.isEmpty_iff]
    constructor
    · rintro rfl; exact ⟨[], [], rfl⟩
    · rintro ⟨a, b, h⟩
      have := List.append_eq_nil_iff.1 h.symm
      exact (List.append_eq_nil_iff.1 this.1).2
  | cons x xs ih =>
    simp only [strstr, Bool.or_eq_true, ih, List.isPrefixOf_iff_prefix]
    constructor
    · rintro (⟨b, h⟩ | ⟨a, b, h⟩)
      · exact ⟨[], b, by simpa using h.symm⟩
      · exact ⟨x :: a, b, by simp [h]⟩
    · rintro ⟨a, b, h⟩
      cases a with
      | nil => exact Or.inl ⟨b, by simpa using h.symm⟩
      | cons y a =>
        simp only [List.cons_append, List.cons.injEq] at h
        exact Or.inr ⟨a, b, h.2⟩

/-- C184 (the sites left out). A site is left out of the dump exactly if its function's name has `__mpqp_` or `__q_` in it, or is `____add_f`, `__create_timer_on_q` or `expand_fdtable_locked`. -/
theorem C184_ignored (f : List Nat) : ignored f = true ↔ (∃ a b, f = a ++ bytes "__mpqp_" ++ b) ∨ (∃ a b, f = a ++ bytes "__q_" ++ b) ∨
    f ∈ [bytes "____add_f", bytes "__create_timer_on_q", bytes "expand_fdtable_locked"] := by
  simp only [ignored, Bool.or_eq_true, strstr_iff, beq_iff_eq, List.mem_cons, List.not_mem_nil, or_false, or_assoc]

example : ignored (bytes "my__q_push") = true ∧ ignored (bytes "open") = false := by decide +kernel

/-- C184 (`aosl_memdump` when recording is off): nothing is printed, and nothing is counted. -/
theorem C184_off (ov : Ov) (ops : List Op) (s : St) (h : run ov St.init ops = some s) (hoff : (live ops).1 = false) : memdump s = none ∧ s.used = 0 ∧ s.pos = [] := by
  have hi := run_inv ov ops _ s _ (init_inv ov) h
  have hL : (live ops).2 = [] := hi.off hoff
  have hp : s.pos = [] := by
    refine List.eq_nil_iff_forall_not_mem.2 (fun p hp => ?_)
    have := ((hi.agrees p).1 hp).2.1
    rw [show (ops.foldl liveStep (false, [])).2 = [] from hL] at this
    exact this rfl
  have hu := hi.used
  rw [show (ops.foldl liveStep (false, [])).2 = [] from hL, hp] at hu
  refine ⟨?_, by simpa [bytesOf] using hu, hp⟩
  have : s.inited = false := by rw [hi.on]; exact hoff
  simp [memdump, this]

/-- C184 (giving everything back). When every block is given back, the table is empty and `aosl_memused` is 0. -/
theorem C184_none_left (ov : Ov) (ops : List Op) (s : St) (h : run ov St.init ops = some s) (hl : (live ops).2 = []) : s.pos = [] ∧ s.used = 0 := by
  have hi := run_inv ov ops _ s _ (init_inv ov) h
  have hp : s.pos = [] := by
    refine List.eq_nil_iff_forall_not_mem.2 (fun p hp => ?_)
    have := ((hi.agrees p).1 hp).2.1
    rw [show (ops.foldl liveStep (false, [])).2 = [] from hl] at this
    exact this rfl
  have hu := hi.used
  rw [show (ops.foldl liveStep (false, [])).2 = [] from hl, hp] at hu
  exact ⟨hp, by simpa [bytesOf] using hu⟩

/-- Every call a program can make is served: the histories above are not empty of calls. -/
theorem C184_total (ov : Ov) (s : St) (b : Blk) (h : b.ptr ≠ 0 ∧ b.ptr ∉ s.hal) : (step ov s (.alloc b)).isSome = true := by
  simp [step, h]

def exBlk (p n : Nat) (f : String) (l : Int) : Blk := ⟨p, n, some (bytes f), l⟩

/-- Three sites, one of them of the library's own, a block resized and moved to another site, one given back, one from before the start. -/
def exOps : List Op := [.alloc (exBlk 8 1 "early" 3), .mmInit, .alloc (exBlk 16 10 "open" 7), .alloc (exBlk 32 20 "open" 7), .alloc (exBlk 48 5 "__q_push" 2),
  .alloc ⟨64, 3, none, 0⟩, .realloc 16 (exBlk 80 100 "grow" 9), .free 8, .reallocFail 32, .alloc (exBlk 96 4 "open" 8), .free 96]

example : (run ⟨40, 48⟩ St.init exOps).bind memdump =
    some (3, 20 + 5 + 3 + 100 + 4 * 40 + 3 * 48, [⟨0, 1, 100, bytes "grow", 9⟩, ⟨1, 1, 20, bytes "open", 7⟩]) := by decide +kernel

example : (live exOps).1 = true ∧ (live exOps).2.map Blk.ptr = [80, 64, 48, 32] := by decide +kernel

end Verif.MmPos
