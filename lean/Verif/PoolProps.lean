import Verif.Pool

/-! # Pools: size, choice of the queue, usage counts (C47, C49) -/

namespace Verif.Pool

/-! ## The choice loop -/

theorem best_spec (key : Entry → Nat) (all pre es : List Entry) (b : Option Nat) (hall : all = pre ++ es)
    (hb : match b with
      | none => pre = []
      | some k => ∃ e, pre[k]? = some e ∧ ∀ f ∈ pre, key e ≤ key f) :
    match best key b pre.length all es with
    | none => all = []
    | some k => ∃ e, all[k]? = some e ∧ ∀ f ∈ all, key e ≤ key f := by
  induction es generalizing pre b with
  | nil => simp only [best]; simp at hall; subst hall; exact hb
  | cons e es ih =>
    have h1 : all = (pre ++ [e]) ++ es := by simp [hall]
    have hlen : (pre ++ [e]).length = pre.length + 1 := by simp
    have hget : (pre ++ [e])[pre.length]? = some e := by simp
    cases b with
    | none =>
      simp only at hb
      subst hb
      have := ih (pre := [e]) (b := some 0) (by simpa using hall) ⟨e, by simp, by simp⟩
      simpa [best] using this
    | some k =>
      obtain ⟨be, hk, hmin⟩ := hb
      have hkl : k < pre.length := by
        rcases Nat.lt_or_ge k pre.length with h | h
        · exact h
        · rw [List.getElem?_eq_none h] at hk; simp at hk
      have hk2 : all[k]? = some be := by rw [hall, List.getElem?_append_left hkl, hk]
      simp only [best, Option.bind_some, hk2]
      by_cases hlt : key e < key be
      · rw [if_pos hlt]
        have := ih (pre := pre ++ [e]) (b := some pre.length) h1 ⟨e, hget, by
          intro f hf
          rcases List.mem_append.1 hf with h | h
          · have := hmin f h; omega
          · simp at h; subst h; omega⟩
        rw [hlen] at this; exact this
      · rw [if_neg hlt]
        have := ih (pre := pre ++ [e]) (b := some k) h1 ⟨be, by rw [List.getElem?_append_left hkl, hk], by
          intro f hf
          rcases List.mem_append.1 hf with h | h
          · exact hmin f h
          · simp at h; subst h; omega⟩
        rw [hlen] at this; exact this

theorem bestQ_spec (s : St) : match bestQ s with
    | none => s.pool = []
    | some k => ∃ e, s.pool[k]? = some e ∧ ∀ f ∈ s.pool, loadOf s e.q ≤ loadOf s f.q :=
  best_spec _ s.pool [] s.pool none rfl rfl

theorem bestAlloc_spec (s : St) : match bestAlloc s with
    | none => s.pool = []
    | some k => ∃ e, s.pool[k]? = some e ∧ ∀ f ∈ s.pool, e.usage ≤ f.usage :=
  best_spec _ s.pool [] s.pool none rfl rfl

/-- One more caller holds queue `q`. -/
def held (s : St) (q : Nat) : St := modQ s q (fun x => { x with hold := x.hold + 1 })

/-- The three outcomes of choosing a queue. -/
theorem bestGet_cases (s : St) (ok : Bool) :
    (bestGet s ok = (none, s) ∧ s.pool = [] ∧ ok = false) ∨
    (∃ e ∈ s.pool, bestGet s ok = (some e.q, held s e.q) ∧ (∀ f ∈ s.pool, loadOf s e.q ≤ loadOf s f.q) ∧
      (ok = false ∨ loadOf s e.q = 0 ∨ s.size ≤ s.pool.length)) ∨
    (ok = true ∧ bestGet s ok = (some s.qs.length, held (addQ s) s.qs.length) ∧ (∀ f ∈ s.pool, 0 < loadOf s f.q) ∧ (s.pool = [] ∨ s.pool.length < s.size)) := by
  have hnew : (addQ s).pool[s.pool.length]? = some { q := s.qs.length, usage := 1 } := by simp [addQ]
  have hb := bestQ_spec s
  cases hq : bestQ s with
  | none =>
    simp only [hq] at hb
    cases ok
    · left; refine ⟨?_, hb, rfl⟩; simp [bestGet, hq]
    · right; right
      refine ⟨rfl, ?_, by simp [hb], Or.inl hb⟩
      simp only [bestGet, hq, Option.bind_none, Bool.and_self, if_true, Option.bind_some, hnew, held]
  | some k =>
    simp only [hq] at hb
    obtain ⟨e, hk, hmin⟩ := hb
    have hmem : e ∈ s.pool := List.mem_of_getElem? hk
    by_cases hc : (0 < loadOf s e.q ∧ s.pool.length < s.size) ∧ ok = true
    · obtain ⟨⟨c1, c2⟩, rfl⟩ := hc
      right; right
      refine ⟨rfl, ?_, fun f hf => Nat.lt_of_lt_of_le c1 (hmin f hf), Or.inr c2⟩
      simp [bestGet, hq, hk, c1, c2, hnew, held]
    · right; left
      refine ⟨e, hmem, ?_, hmin, ?_⟩
      · have : (decide (0 < loadOf s e.q ∧ s.pool.length < s.size) && ok) = false := by
          rcases Bool.eq_false_or_eq_true ok with h | h
          · simp only [h, and_true] at hc; simp [hc, h]
          · simp [h]
        simp only [bestGet, hq, hk, Option.bind_some, this, Bool.false_eq_true, if_false, held]
      · cases ok <;> simp_all <;> omega

/-- One more allocation of the entry at `i`. -/
def bumped (s : St) (i : Nat) (e : Entry) : St :=
  { s with pool := s.pool.set i { e with usage := e.usage + 1 }, log := s.log ++ [.alloc e.q] }

theorem alloc_cases (s : St) (ok : Bool) :
    (alloc s ok = (none, s) ∧ s.pool = [] ∧ ok = false) ∨
    (∃ i e, s.pool[i]? = some e ∧ alloc s ok = (some e.q, bumped s i e) ∧ (∀ f ∈ s.pool, e.usage ≤ f.usage) ∧
      (ok = false ∨ e.usage ≤ 1 ∨ s.size ≤ s.pool.length)) ∨
    (ok = true ∧ alloc s ok = (some s.qs.length, bumped (addQ s) s.pool.length { q := s.qs.length, usage := 1 }) ∧ (∀ f ∈ s.pool, 1 < f.usage) ∧
      (s.pool = [] ∨ s.pool.length < s.size)) := by
  have hnew : (addQ s).pool[s.pool.length]? = some { q := s.qs.length, usage := 1 } := by simp [addQ]
  have hb := bestAlloc_spec s
  cases hq : bestAlloc s with
  | none =>
    simp only [hq] at hb
    cases ok
    · left; refine ⟨?_, hb, rfl⟩; simp [alloc, hq]
    · right; right
      refine ⟨rfl, ?_, by simp [hb], Or.inl hb⟩
      simp only [alloc, hq, Option.bind_none, Bool.and_self, if_true, Option.bind_some, hnew, bumped]
  | some k =>
    simp only [hq] at hb
    obtain ⟨e, hk, hmin⟩ := hb
    by_cases hc : (1 < e.usage ∧ s.pool.length < s.size) ∧ ok = true
    · obtain ⟨⟨c1, c2⟩, rfl⟩ := hc
      right; right
      refine ⟨rfl, ?_, fun f hf => Nat.lt_of_lt_of_le c1 (hmin f hf), Or.inr c2⟩
      simp [alloc, hq, hk, c1, c2, hnew, bumped]
    · right; left
      refine ⟨k, e, hk, ?_, hmin, ?_⟩
      · have : (decide (1 < e.usage ∧ s.pool.length < s.size) && ok) = false := by
          rcases Bool.eq_false_or_eq_true ok with h | h
          · simp only [h, and_true] at hc; simp [hc, h]
          · simp [h]
        simp only [alloc, hq, hk, Option.bind_some, this, Bool.false_eq_true, if_false, bumped]
      · cases ok <;> simp_all <;> omega

theorem findQid_spec (q i : Nat) (l : List Entry) : match findQid q i l with
    | none => ∀ e ∈ l, e.q ≠ q
    | some (k, e) => ∃ j, k = i + j ∧ l[j]? = some e ∧ e.q = q := by
  induction l generalizing i with
  | nil => simp [findQid]
  | cons a as ih =>
    simp only [findQid]
    by_cases h : a.q = q
    · rw [if_pos h]; exact ⟨0, by simp, by simp, h⟩
    · rw [if_neg h]
      have := ih (i + 1)
      cases hf : findQid q (i + 1) as with
      | none =>
        rw [hf] at this
        simp only at this ⊢
        intro e he
        rcases List.mem_cons.1 he with rfl | he
        · exact h
        · exact this e he
      | some v =>
        obtain ⟨k, e⟩ := v
        rw [hf] at this
        simp only at this ⊢
        obtain ⟨j, h1, h2, h3⟩ := this
        exact ⟨j + 1, by omega, by simpa using h2, h3⟩

/-! ## The invariant -/

/-- How often `aosl_mpq_alloc` returned queue `q`. -/
def allocs (l : List Ev) (q : Nat) : Nat := l.count (.alloc q)
/-- How often `aosl_mpq_free (q)` succeeded. -/
def frees (l : List Ev) (q : Nat) : Nat := l.count (.free q)

structure Inv (s : St) : Prop where
  sz : 1 ≤ s.size
  len : s.pool.length ≤ s.size
  nd : ∀ (i j : Nat) (e f : Entry), s.pool[i]? = some e → s.pool[j]? = some f → e.q = f.q → i = j
  valid : ∀ (i : Nat) (e : Entry), s.pool[i]? = some e → e.q < s.qs.length
  alive : ∀ (i : Nat) (e : Entry) (x : Q), s.pool[i]? = some e → s.qs[e.q]? = some x → x.term = false
  use : ∀ (i : Nat) (e : Entry), s.pool[i]? = some e → e.usage + frees s.log e.q = 1 + allocs s.log e.q ∧ 1 ≤ e.usage
  ev : ∀ q, s.qs.length ≤ q → allocs s.log q = 0 ∧ frees s.log q = 0
  ub : s.dtor = none → s.ub = false ∧ s.freed = false

theorem lt_of_get {α : Type} {l : List α} {i : Nat} {x : α} (h : l[i]? = some x) : i < l.length := by
  rcases Nat.lt_or_ge i l.length with h1 | h1
  · exact h1
  · rw [List.getElem?_eq_none h1] at h; simp at h

theorem get_set {α : Type} {l : List α} {i j : Nat} {x y : α} (h : (l.set i x)[j]? = some y) : (j = i ∧ y = x) ∨ (j ≠ i ∧ l[j]? = some y) := by
  rw [List.getElem?_set] at h
  grind

theorem get_append {α : Type} {l : List α} {j : Nat} {x y : α} (h : (l ++ [x])[j]? = some y) : (j = l.length ∧ y = x) ∨ (l[j]? = some y) := by
  rcases Nat.lt_or_ge j l.length with h1 | h1
  · rw [List.getElem?_append_left h1] at h; exact Or.inr h
  · rw [List.getElem?_append_right h1] at h
    have h2 := lt_of_get h
    simp at h2
    have : j = l.length := by omega
    subst this
    simp at h
    exact Or.inl ⟨rfl, h.symm⟩

/-- Steps that change nothing of the pool itself. -/
theorem inv_same {s s' : St} (hi : Inv s) (hs : s'.size = s.size) (hp : s'.pool = s.pool) (hl : s'.qs.length = s.qs.length)
    (ht : ∀ (q : Nat) (x' : Q), s'.qs[q]? = some x' → ∃ x : Q, s.qs[q]? = some x ∧ x'.term = x.term)
    (hc : ∀ q, allocs s'.log q = allocs s.log q ∧ frees s'.log q = frees s.log q)
    (hd : s'.dtor = none → s.dtor = none ∧ s'.ub = s.ub ∧ s'.freed = s.freed) : Inv s' := by
  refine ⟨by rw [hs]; exact hi.sz, by rw [hs, hp]; exact hi.len, by rw [hp]; exact hi.nd, by rw [hp, hl]; exact hi.valid, ?_, ?_, ?_, ?_⟩
  · intro i e x h1 h2
    rw [hp] at h1
    obtain ⟨y, h3, h4⟩ := ht _ _ h2
    rw [h4]; exact hi.alive i e y h1 h3
  · intro i e h1
    rw [hp] at h1
    rw [(hc e.q).1, (hc e.q).2]; exact hi.use i e h1
  · intro q h1
    rw [hl] at h1
    rw [(hc q).1, (hc q).2]; exact hi.ev q h1
  · intro h1
    obtain ⟨h2, h3, h4⟩ := hd h1
    rw [h3, h4]; exact hi.ub h2

theorem term_set {s : St} {q : Nat} {x y : Q} (hq : s.qs[q]? = some x) (ht : y.term = x.term) :
    ∀ (r : Nat) (x' : Q), (s.qs.set q y)[r]? = some x' → ∃ x : Q, s.qs[r]? = some x ∧ x'.term = x.term := by
  intro r x' h
  rcases get_set h with ⟨rfl, rfl⟩ | ⟨_, h⟩
  · exact ⟨x, hq, ht⟩
  · exact ⟨x', h, rfl⟩

theorem cnt_append {l : List Ev} {e : Ev} (h : ∀ q, e ≠ .alloc q ∧ e ≠ .free q) : ∀ q, allocs (l ++ [e]) q = allocs l q ∧ frees (l ++ [e]) q = frees l q := by
  intro q
  have := h q
  simp [allocs, frees, List.count_append, this.1, this.2]

theorem cnt_refl {l : List Ev} : ∀ q, allocs l q = allocs l q ∧ frees l q = frees l q := fun _ => ⟨rfl, rfl⟩

theorem inv_addQ {s : St} (hi : Inv s) (h : s.pool = [] ∨ s.pool.length < s.size) : Inv (addQ s) := by
  have hlt : s.pool.length < s.size := by rcases h with h | h; (· have := hi.sz; simp [h]; omega); exact h
  refine ⟨hi.sz, ?_, ?_, ?_, ?_, ?_, ?_, ?_⟩
  · simp [addQ]; omega
  · intro i j e f h1 h2 h3
    simp only [addQ] at h1 h2
    rcases get_append h1 with ⟨rfl, rfl⟩ | h1 <;> rcases get_append h2 with ⟨rfl, rfl⟩ | h2
    · rfl
    · have := hi.valid j f h2; simp at h3; omega
    · have := hi.valid i e h1; simp at h3; omega
    · exact hi.nd i j e f h1 h2 h3
  · intro i e h1
    simp only [addQ] at h1 ⊢
    rcases get_append h1 with ⟨rfl, rfl⟩ | h1
    · simp
    · have := hi.valid i e h1; simp; omega
  · intro i e x h1 h2
    simp only [addQ] at h1 h2
    rcases get_append h1 with ⟨rfl, rfl⟩ | h1
    · simp at h2; subst h2; rfl
    · have := hi.valid i e h1
      rw [List.getElem?_append_left this] at h2
      exact hi.alive i e x h1 h2
  · intro i e h1
    simp only [addQ] at h1 ⊢
    rcases get_append h1 with ⟨rfl, rfl⟩ | h1
    · have := hi.ev s.qs.length (Nat.le_refl _); simp [this.1, this.2]
    · exact hi.use i e h1
  · intro q hq
    simp [addQ] at hq
    exact hi.ev q (by omega)
  · intro hd
    have := hi.ub hd
    simp only [addQ, this.1, this.2, Bool.false_or]
    simp; omega

theorem inv_modQ {s : St} (hi : Inv s) (q : Nat) (f : Q → Q) (hf : ∀ x, (f x).term = x.term) : Inv (modQ s q f) := by
  simp only [modQ]
  split
  · rename_i x hx
    exact inv_same hi rfl rfl (by simp) (term_set hx (hf x)) cnt_refl (fun h => ⟨h, rfl, rfl⟩)
  · exact hi

theorem inv_bumped {s : St} (hi : Inv s) {i : Nat} {e : Entry} (he : s.pool[i]? = some e) : Inv (bumped s i e) := by
  have hal : ∀ q, allocs (s.log ++ [.alloc e.q]) q = allocs s.log q + (if q = e.q then 1 else 0) := by
    intro q; simp only [allocs, List.count_append, List.count_singleton]; congr 1; by_cases h : q = e.q <;> simp [h, Ne.symm]
  have hfr : ∀ q, frees (s.log ++ [.alloc e.q]) q = frees s.log q := by
    intro q; simp [frees, List.count_append]
  have key : ∀ (j : Nat) (f : Entry), (s.pool.set i { e with usage := e.usage + 1 })[j]? = some f → ∃ f0 : Entry, s.pool[j]? = some f0 ∧ f.q = f0.q := by
    intro j f h
    rcases get_set h with ⟨rfl, rfl⟩ | ⟨_, h⟩
    · exact ⟨e, he, rfl⟩
    · exact ⟨f, h, rfl⟩
  refine ⟨hi.sz, by simp [bumped]; exact hi.len, ?_, ?_, ?_, ?_, ?_, hi.ub⟩
  · intro j k f g h1 h2 h3
    obtain ⟨f0, a1, a2⟩ := key j f h1
    obtain ⟨g0, b1, b2⟩ := key k g h2
    exact hi.nd j k f0 g0 a1 b1 (by rw [← a2, ← b2, h3])
  · intro j f h1
    obtain ⟨f0, a1, a2⟩ := key j f h1
    rw [a2]; exact hi.valid j f0 a1
  · intro j f x h1 h2
    obtain ⟨f0, a1, a2⟩ := key j f h1
    rw [a2] at h2; exact hi.alive j f0 x a1 h2
  · intro j f h1
    simp only [bumped, hal, hfr]
    rcases get_set h1 with ⟨rfl, rfl⟩ | ⟨hne, h⟩
    · have := hi.use j e he; simp; omega
    · have hq : f.q ≠ e.q := fun hq => hne (hi.nd j i f e h he hq)
      have := hi.use j f h; simp [hq]; exact this
  · intro q h1
    simp only [bumped, hal, hfr]
    have := hi.ev q h1
    have hq : q ≠ e.q := by have := hi.valid i e he; intro h; subst h; simp [bumped] at h1; omega
    simp [hq]; exact this

theorem inv_free {s : St} (hi : Inv s) (q : Nat) : Inv (free s q) := by
  simp only [free]
  have hf := findQid_spec q 0 s.pool
  split
  · rename_i i e h
    rw [h] at hf
    obtain ⟨j, h1, h2, h3⟩ := hf
    have : i = j := by omega
    subst this
    split
    · rename_i hu
      subst h3
      have hfr : ∀ q, frees (s.log ++ [.free e.q]) q = frees s.log q + (if q = e.q then 1 else 0) := by
        intro q; simp only [frees, List.count_append, List.count_singleton]; congr 1; by_cases h : q = e.q <;> simp [h, Ne.symm]
      have hal : ∀ q, allocs (s.log ++ [.free e.q]) q = allocs s.log q := by
        intro q; simp [allocs, List.count_append]
      have key : ∀ (j : Nat) (f : Entry), (s.pool.set i { e with usage := e.usage - 1 })[j]? = some f → ∃ f0 : Entry, s.pool[j]? = some f0 ∧ f.q = f0.q := by
        intro j f h
        rcases get_set h with ⟨rfl, rfl⟩ | ⟨_, h⟩
        · exact ⟨e, h2, rfl⟩
        · exact ⟨f, h, rfl⟩
      refine ⟨hi.sz, by simp; exact hi.len, ?_, ?_, ?_, ?_, ?_, hi.ub⟩
      · intro j k f g h1 h2 h3
        obtain ⟨f0, a1, a2⟩ := key j f h1
        obtain ⟨g0, b1, b2⟩ := key k g h2
        exact hi.nd j k f0 g0 a1 b1 (by rw [← a2, ← b2, h3])
      · intro j f h1
        obtain ⟨f0, a1, a2⟩ := key j f h1
        rw [a2]; exact hi.valid j f0 a1
      · intro j f x h1 h2
        obtain ⟨f0, a1, a2⟩ := key j f h1
        rw [a2] at h2; exact hi.alive j f0 x a1 h2
      · intro j f h1
        simp only [hal, hfr]
        rcases get_set h1 with ⟨rfl, rfl⟩ | ⟨hne, h⟩
        · have := hi.use j e h2; simp; omega
        · have hq : f.q ≠ e.q := fun hq => hne (hi.nd j i f e h h2 hq)
          have := hi.use j f h; simp [hq]; exact this
      · intro q h1
        simp only [hal, hfr]
        have := hi.ev q h1
        have hq : q ≠ e.q := by have := hi.valid i e h2; intro h; subst h; simp at h1; omega
        simp [hq]; exact this
    · exact inv_same hi rfl rfl rfl (fun q x h => ⟨x, h, rfl⟩) (cnt_append (by simp)) (fun h => ⟨h, rfl, rfl⟩)
  · exact inv_same hi rfl rfl rfl (fun q x h => ⟨x, h, rfl⟩) (cnt_append (by simp)) (fun h => ⟨h, rfl, rfl⟩)

theorem inv_emit {s : St} (hi : Inv s) {e : Ev} (h : ∀ q, e ≠ .alloc q ∧ e ≠ .free q) : Inv (emit s e) :=
  inv_same hi rfl rfl rfl (fun _ x h => ⟨x, h, rfl⟩) (cnt_append h) (fun h => ⟨h, rfl, rfl⟩)

theorem inv_setWaits {s : St} (hi : Inv s) (c : Option Nat) (w : Bool) (l : List Nat) : Inv (setWaits s c w l) := by
  cases c with
  | none => exact hi
  | some c =>
    simp only [setWaits]
    split
    · exact inv_modQ hi c _ (fun _ => rfl)
    · exact hi

/-- Taking entries out of the pool, from the end, and terminating their queues. -/
theorem inv_cut {s : St} (hi : Inv s) (n : Nat) (qs' : List Q) (hl : qs'.length = s.qs.length)
    (ht : ∀ (r : Nat) (x' : Q), qs'[r]? = some x' → ∃ x : Q, s.qs[r]? = some x ∧ (x'.term = x.term ∨ ∃ (j : Nat) (e : Entry), n ≤ j ∧ s.pool[j]? = some e ∧ e.q = r)) :
    Inv { s with pool := s.pool.take n, qs := qs' } := by
  have key : ∀ (j : Nat) (f : Entry), (s.pool.take n)[j]? = some f → s.pool[j]? = some f ∧ j < n := by
    intro j f h
    rw [List.getElem?_take] at h
    grind
  refine ⟨hi.sz, ?_, ?_, ?_, ?_, ?_, ?_, hi.ub⟩
  · simp; have := hi.len; omega
  · intro i j e f h1 h2; exact hi.nd i j e f (key i e h1).1 (key j f h2).1
  · intro i e h1; simp only [hl]; exact hi.valid i e (key i e h1).1
  · intro i e x h1 h2
    obtain ⟨k1, k2⟩ := key i e h1
    obtain ⟨x0, a1, a2 | ⟨j, f, b1, b2, b3⟩⟩ := ht _ _ h2
    · rw [a2]; exact hi.alive i e x0 k1 a1
    · have := hi.nd i j e f k1 b2 b3.symm; omega
  · intro i e h1; exact hi.use i e (key i e h1).1
  · intro q h; simp only [hl] at h; exact hi.ev q h

theorem inv_shrink {s : St} (hi : Inv s) (c : Option Nat) (w : Bool) : Inv (shrink s c w) := by
  simp only [shrink]
  split
  · split
    · rename_i e he
      split
      · refine inv_emit (inv_setWaits ?_ c w _) (by simp)
        rw [List.getLast?_eq_getElem?] at he
        have hv := hi.valid _ e he
        have hx : s.qs[e.q]? = some s.qs[e.q] := by simp [hv]
        have := inv_cut hi (s.pool.length - 1) (s.qs.set e.q { s.qs[e.q] with term := true }) (by simp) (by
          intro r x' h
          rcases get_set h with ⟨rfl, rfl⟩ | ⟨_, h⟩
          · exact ⟨_, hx, Or.inr ⟨_, e, Nat.le_refl _, he, rfl⟩⟩
          · exact ⟨x', h, Or.inl rfl⟩)
        simp only [setTerm, modQ, hx, List.dropLast_eq_take]
        exact this
      · exact inv_emit hi (by simp)
    · exact inv_emit hi (by simp)
  · exact inv_emit hi (by simp)

theorem inv_shrinkAll {s : St} (hi : Inv s) (c : Option Nat) (w : Bool) : Inv (shrinkAll s c w) := by
  simp only [shrinkAll]
  refine inv_emit (inv_setWaits ?_ c w _) (by simp)
  have := inv_cut hi 0 (s.qs.mapIdx (fun i x => if i ∈ s.pool.map (·.q) then { x with term := true } else x)) (by simp) (by
    intro r x' h
    rw [List.getElem?_mapIdx] at h
    cases hx : s.qs[r]? with
    | none => rw [hx] at h; simp at h
    | some x =>
      rw [hx] at h
      simp only [Option.map_some, Option.some.injEq] at h
      refine ⟨x, rfl, ?_⟩
      split at h
      · rename_i hm
        obtain ⟨e, he, hq⟩ := List.mem_map.1 hm
        obtain ⟨j, hj⟩ := List.getElem?_of_mem he
        exact Or.inr ⟨j, e, Nat.zero_le _, hj, hq⟩
      · subst h; exact Or.inl rfl)
  simpa using this

theorem inv_tail {s : St} (hi : Inv s) (ok : Bool) : Inv (tail s ok) := by
  simp only [tail]
  split
  · exact hi
  · have h1 : Inv (if s.pool = [] then addQ s else s) := by
      split
      · rename_i h; exact inv_addQ hi (Or.inl h)
      · exact hi
    generalize (if s.pool = [] then addQ s else s) = s1 at h1
    refine inv_same h1 rfl rfl (by simp) ?_ (cnt_append (by simp)) (fun h => ⟨h, rfl, rfl⟩)
    intro r x' h
    simp only [List.getElem?_mapIdx] at h
    cases hx : s1.qs[r]? with
    | none => rw [hx] at h; simp at h
    | some x =>
      rw [hx] at h
      simp only [Option.map_some, Option.some.injEq] at h
      refine ⟨x, rfl, ?_⟩
      split at h <;> subst h <;> rfl

theorem inv_step {s s' : St} (hi : Inv s) {a : Act} (h : step s a = some s') : Inv s' := by
  cases a with
  | get ok =>
    simp only [step] at h
    split at h
    · cases h
      rcases bestGet_cases s ok with ⟨h1, -⟩ | ⟨e, -, h1, -⟩ | ⟨-, h1, -, h2⟩
      · rw [h1]; exact hi
      · rw [h1]; exact inv_modQ hi _ _ (fun _ => rfl)
      · rw [h1]; exact inv_modQ (inv_addQ hi h2) _ _ (fun _ => rfl)
    · simp at h
  | put q =>
    simp only [step] at h
    split at h
    · rename_i x hx
      split at h
      · cases h; exact inv_same hi rfl rfl (by simp) (term_set hx (by rfl)) cnt_refl (fun h => ⟨h, rfl, rfl⟩)
      · simp at h
    · simp at h
  | queue q =>
    simp only [step] at h
    split at h
    · rename_i x hx
      split at h
      · simp at h
      · cases h; exact inv_same hi rfl rfl (by simp) (term_set hx (by rfl)) (cnt_append (by simp)) (fun h => ⟨h, rfl, rfl⟩)
    · simp at h
  | tail ok =>
    simp only [step] at h
    split at h
    · cases h; exact inv_tail hi ok
    · simp at h
  | start q =>
    simp only [step] at h
    split at h
    · rename_i x hx
      split at h
      · cases h
        refine inv_same hi rfl rfl (by simp) (term_set hx (by rfl)) ?_ (fun h => ⟨h, rfl, rfl⟩)
        simp only
        split
        · exact cnt_append (by simp)
        · exact cnt_refl
      · cases h; exact inv_same hi rfl rfl (by simp) (term_set hx (by rfl)) cnt_refl (fun h => ⟨h, rfl, rfl⟩)
      · simp at h
    · simp at h
  | finish q =>
    simp only [step] at h
    split at h
    · rename_i x hx
      split at h
      · split at h
        · cases h
          refine inv_same hi rfl rfl (by simp) (term_set hx (by rfl)) ?_ (fun h => ⟨h, rfl, rfl⟩)
          simp only
          split
          · exact cnt_append (by simp)
          · exact cnt_refl
        · simp at h
      · simp at h
    · simp at h
  | tick q =>
    simp only [step] at h
    split at h
    · rename_i x hx
      split at h
      · split at h
        · simp at h
        · cases h; exact inv_same hi rfl rfl (by simp) (term_set hx (by rfl)) cnt_refl (fun h => ⟨h, by simp [(hi.ub h).2], rfl⟩)
      · simp at h
    · simp at h
  | alloc ok =>
    simp only [step] at h
    split at h
    · cases h
      rcases alloc_cases s ok with ⟨h1, -⟩ | ⟨i, e, h0, h1, -⟩ | ⟨-, h1, -, h2⟩
      · rw [h1]; exact hi
      · rw [h1]; exact inv_bumped hi h0
      · rw [h1]; exact inv_bumped (inv_addQ hi h2) (by simp [addQ])
    · simp at h
  | free q =>
    simp only [step] at h
    split at h
    · cases h; exact inv_free hi q
    · simp at h
  | shrink c w =>
    simp only [step] at h
    split at h
    · cases h; exact inv_shrink hi c w
    · simp at h
  | shrinkAll c w =>
    simp only [step] at h
    split at h
    · cases h; exact inv_shrinkAll hi c w
    · simp at h
  | exit q =>
    simp only [step] at h
    split at h
    · rename_i x hx
      split at h
      · cases h; exact inv_same hi rfl rfl (by simp) (term_set hx (by rfl)) cnt_refl (fun h => ⟨h, by simp [(hi.ub h).2], rfl⟩)
      · simp at h
    · simp at h
  | destroy w =>
    simp only [step] at h
    split at h
    · cases h
      exact inv_same (inv_shrinkAll hi none w) rfl rfl rfl (fun _ x h => ⟨x, h, rfl⟩) cnt_refl (by simp)
    · simp at h
  | freePool =>
    simp only [step] at h
    split at h
    · rename_i l hl
      split at h
      · cases h
        exact inv_same hi rfl rfl rfl (fun _ x h => ⟨x, h, rfl⟩) cnt_refl (by simp [hl])
      · simp at h
    · simp at h

theorem inv_run {s s' : St} (hi : Inv s) (acts : List Act) (h : run s acts = some s') : Inv s' := by
  induction acts generalizing s with
  | nil => simp [run] at h; subst h; exact hi
  | cons a as ih =>
    simp only [run] at h
    split at h
    · rename_i s1 h1; exact ih (inv_step hi h1) h
    · simp at h

theorem inv_init {size : Nat} (h : 1 ≤ size) : Inv (init size) :=
  ⟨h, by simp [init], by simp [init], by simp [init], by simp [init], by simp [init], by simp [init, allocs, frees], by simp [init]⟩

theorem inv_reach {s : St} (h : Reachable s) : Inv s := by
  obtain ⟨n, acts, hc, h⟩ := h
  exact inv_run (inv_init hc) acts h

/-! ## C47: the size of the pool, and the choice of the queue -/

/-- C47: however many threads use the pool, it never has more queues than its size. -/
theorem C47_bounded (s : St) (h : Reachable s) : s.pool.length ≤ s.size := (inv_reach h).len

/-- C47: no entry outside of the array is ever written, and the pool's queues are different, running queues. -/
theorem C47_entries (s : St) (h : Reachable s) :
    (s.dtor = none → s.ub = false) ∧ (s.pool.map (·.q)).Nodup ∧ ∀ e ∈ s.pool, ∃ x : Q, s.qs[e.q]? = some x ∧ x.term = false := by
  have hi := inv_reach h
  refine ⟨fun hd => (hi.ub hd).1, ?_, ?_⟩
  · rw [List.Nodup, List.pairwise_iff_getElem]
    intro i j hi0 hj hij heq
    simp only [List.length_map] at hj
    have h1 : s.pool[i]? = some s.pool[i] := by simp [Nat.lt_trans hij hj]
    have h2 : s.pool[j]? = some s.pool[j] := by simp [hj]
    simp only [List.getElem_map] at heq
    have := hi.nd i j _ _ h1 h2 heq
    omega
  · intro e he
    obtain ⟨i, hi'⟩ := List.getElem?_of_mem he
    have hv := hi.valid i e hi'
    exact ⟨s.qs[e.q], by simp [hv], hi.alive i e _ hi' (by simp [hv])⟩

/-- C47: a function given to the pool goes to a queue of minimal load, or to a new queue; a new queue is used only if
every queue of the pool is busy (or there is none), and is used whenever every queue is busy, the pool is not full and creating one
succeeds.  No queue is found only if there is none and none could be created. -/
theorem C47_least_loaded (s : St) (h : Reachable s) (ok : Bool) : match (bestGet s ok).1 with
    | none => s.pool = [] ∧ ok = false
    | some q => (q ∈ s.pool.map (·.q) ∧ (∀ f ∈ s.pool, loadOf s q ≤ loadOf s f.q) ∧ (bestGet s ok).2.pool = s.pool ∧
          ((∀ f ∈ s.pool, 0 < loadOf s f.q) → ok = false ∨ s.pool.length = s.size)) ∨
        (q ∉ s.pool.map (·.q) ∧ (∀ f ∈ s.pool, 0 < loadOf s f.q) ∧ loadOf s q = 0 ∧
          (bestGet s ok).2.pool = s.pool ++ [{ q := q, usage := 1 }]) := by
  have hi := inv_reach h
  have hl := hi.len
  have hmp : ∀ (t : St) q, (held t q).pool = t.pool := by
    intro t q; unfold held modQ; split <;> rfl
  rcases bestGet_cases s ok with ⟨h1, h2, h3⟩ | ⟨e, h0, h1, h2, h3⟩ | ⟨h0, h1, h2, h3⟩
  · rw [h1]; exact ⟨h2, h3⟩
  · rw [h1]
    simp only
    left
    refine ⟨List.mem_map.2 ⟨e, h0, rfl⟩, h2, by rw [hmp], fun hb => ?_⟩
    have := hb e h0
    rcases h3 with h3 | h3 | h3
    · exact Or.inl h3
    · omega
    · right; omega
  · rw [h1]
    simp only
    right
    refine ⟨?_, h2, by simp [loadOf], by rw [hmp]; rfl⟩
    intro hm
    obtain ⟨e, he, hq⟩ := List.mem_map.1 hm
    obtain ⟨i, hi'⟩ := List.getElem?_of_mem he
    have := hi.valid i e hi'
    omega

/-- C47: the same for `aosl_mpq_alloc`, where the load is the number of allocations. -/
theorem C47_least_allocated (s : St) (h : Reachable s) (ok : Bool) : match (alloc s ok).1 with
    | none => s.pool = [] ∧ ok = false
    | some q => ∃ e, e.q = q ∧ ((e ∈ s.pool ∧ (∀ f ∈ s.pool, e.usage ≤ f.usage) ∧ ((∀ f ∈ s.pool, 1 < f.usage) → ok = false ∨ s.pool.length = s.size)) ∨
        (e.usage = 1 ∧ q ∉ s.pool.map (·.q) ∧ ∀ f ∈ s.pool, 1 < f.usage)) := by
  have hi := inv_reach h
  have hl := hi.len
  rcases alloc_cases s ok with ⟨h1, h2, h3⟩ | ⟨i, e, h0, h1, h2, h3⟩ | ⟨h0, h1, h2, h3⟩
  · rw [h1]; exact ⟨h2, h3⟩
  · rw [h1]
    refine ⟨e, rfl, Or.inl ⟨List.mem_of_getElem? h0, h2, fun hb => ?_⟩⟩
    have := hb e (List.mem_of_getElem? h0)
    rcases h3 with h3 | h3 | h3
    · exact Or.inl h3
    · omega
    · right; omega
  · rw [h1]
    refine ⟨{ q := s.qs.length, usage := 1 }, rfl, Or.inr ⟨rfl, ?_, h2⟩⟩
    intro hm
    obtain ⟨e, he, hq⟩ := List.mem_map.1 hm
    obtain ⟨i, hi'⟩ := List.getElem?_of_mem he
    have := hi.valid i e hi'
    omega

/-- The size must be between 1 and 65536. -/
theorem C47_create (size max idles : Int) : createOk size max idles = true ↔ 1 ≤ size ∧ size ≤ 65536 ∧ 1 ≤ max ∧ max ≤ 1000000 ∧ idles ≠ 0 ∧ idles ≤ 715827882 := by
  simp only [createOk, Bool.not_eq_true', Bool.or_eq_false_iff, decide_eq_false_iff_not]
  omega

/-- A pool of size 2, both queues busy: a third call goes to the queue with less to do. -/
def exActs : List Act := [.get true, .queue 0, .put 0, .get true, .queue 1, .put 1, .queue 0]

def exSt : St := (run (init 2) exActs).getD (init 2)

example : Reachable exSt ∧ exSt.pool.length = 2 ∧ loadOf exSt 0 = 2 ∧ loadOf exSt 1 = 1 ∧ (bestGet exSt true).1 = some 1 :=
  ⟨⟨2, exActs, by decide, by decide +kernel⟩, by decide +kernel⟩

/-! ## C49: usage counts -/

/-- C49: `aosl_mpq_free` on a queue of the pool succeeds exactly if it was allocated more often than freed, and is refused with EPERM
otherwise; any other handle is refused with EINVAL.  A refused call changes nothing. -/
theorem C49_free_partial (s : St) (h : Reachable s) (q : Nat) :
    (q ∉ s.pool.map (·.q) → free s q = emit s (.freeInval q)) ∧
    (q ∈ s.pool.map (·.q) → frees s.log q ≤ allocs s.log q ∧
      (allocs s.log q = frees s.log q → free s q = emit s (.freePerm q)) ∧
      (frees s.log q < allocs s.log q → frees (free s q).log q = frees s.log q + 1 ∧ (free s q).qs = s.qs ∧
        (free s q).pool.map (·.q) = s.pool.map (·.q))) := by
  have hi := inv_reach h
  have hf := findQid_spec q 0 s.pool
  constructor
  · intro hm
    cases hq : findQid q 0 s.pool with
    | none => simp only [free, hq]
    | some v =>
      obtain ⟨i, e⟩ := v
      rw [hq] at hf
      obtain ⟨j, h1, h2, h3⟩ := hf
      exact absurd (List.mem_map.2 ⟨e, List.mem_of_getElem? h2, h3⟩) hm
  · intro hm
    cases hq : findQid q 0 s.pool with
    | none =>
      rw [hq] at hf
      obtain ⟨e, he, h1⟩ := List.mem_map.1 hm
      exact absurd h1 (hf e he)
    | some v =>
      obtain ⟨i, e⟩ := v
      rw [hq] at hf
      obtain ⟨j, h1, h2, h3⟩ := hf
      have : i = j := by omega
      subst this
      have hu := hi.use i e h2
      rw [h3] at hu
      refine ⟨by omega, fun ha => ?_, fun ha => ?_⟩
      · simp only [free, hq]
        rw [if_neg (by omega)]
      · simp only [free, hq]
        rw [if_pos (by omega)]
        refine ⟨by simp [frees, List.count_append], rfl, ?_⟩
        apply List.ext_getElem?
        intro k
        simp only [List.getElem?_map, List.getElem?_set]
        split
        · rename_i hk
          subst hk
          have := lt_of_get h2
          simp only [h2, this, if_true, Option.map_some]
        · rfl

/-- C49: shrinking by one takes out only a queue nobody has allocated (allocated as often as freed), only the last one, and never the only one. -/
theorem C49_shrink_partial (s : St) (h : Reachable s) (c : Option Nat) (w : Bool) (s' : St) (hs : step s (.shrink c w) = some s') :
    (s'.pool = s.pool ∧ s'.log = s.log ++ [.shrinkPerm]) ∨
    (∃ e, s.pool = s'.pool ++ [e] ∧ s'.pool ≠ [] ∧ s'.log = s.log ++ [.shrunk e.q] ∧ allocs s.log e.q = frees s.log e.q) := by
  have hi := inv_reach h
  have hw : ∀ (t : St) l, (setWaits t c w l).pool = t.pool ∧ (setWaits t c w l).log = t.log := by
    intro t l
    cases c with
    | none => exact ⟨rfl, rfl⟩
    | some c => simp only [setWaits, modQ]; split; split <;> exact ⟨rfl, rfl⟩; exact ⟨rfl, rfl⟩
  have ht : ∀ (t : St) q, (setTerm t q).pool = t.pool ∧ (setTerm t q).log = t.log := by
    intro t q; simp only [setTerm, modQ]; split <;> exact ⟨rfl, rfl⟩
  simp only [step] at hs
  split at hs
  · cases hs
    simp only [shrink]
    split
    · rename_i hlen
      split
      · rename_i e he
        split
        · rename_i hu
          right
          refine ⟨e, ?_, ?_, ?_, ?_⟩
          · simp only [emit, (hw _ _).1, (ht _ _).1]
            have hne : s.pool ≠ [] := by intro h; simp [h] at hlen
            rw [List.getLast?_eq_some_getLast hne] at he
            cases he
            exact (List.dropLast_concat_getLast hne).symm
          · simp only [emit, (hw _ _).1, (ht _ _).1]
            intro h
            have := congrArg List.length h
            simp at this; omega
          · simp only [emit, (hw _ _).2, (ht _ _).2]
          · rw [List.getLast?_eq_getElem?] at he
            have := hi.use _ e he
            omega
        · left; exact ⟨rfl, rfl⟩
      · left; exact ⟨rfl, rfl⟩
    · left; exact ⟨rfl, rfl⟩
  · simp at hs

/-- C49 fails for the library as it is initialised: `aosl_mpq_alloc` works on `gen_pool`, which `k_mpqp_init` does not create;
the call dereferences a null pointer. -/
theorem C49_alloc_crashes (ok : Bool) : apiAlloc kInit ok = .crash := rfl

/-- Two allocations of one queue (size 1), freed twice; the third free is refused. -/
def exFree : List Act := [.alloc true, .alloc true, .free 0, .free 0, .free 0, .free 7]

example : ((run (init 1) exFree).map (·.log)) = some [.alloc 0, .alloc 0, .free 0, .free 0, .freePerm 0, .freeInval 7] := by decide +kernel

/-- An allocated queue is not shrunk away, an unallocated one is. -/
example : ((run (init 2) [.alloc true, .alloc true, .shrink none true, .free 1, .shrink none true, .shrink none true]).map (·.log)) =
    some [.alloc 0, .alloc 1, .shrinkPerm, .free 1, .shrunk 1, .shrinkPerm] := by decide +kernel

end Verif.Pool
