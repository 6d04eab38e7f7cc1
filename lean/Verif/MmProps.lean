import Verif.Mm
import Verif.RBTree
/-! # C62: the used-memory counter -/

namespace Verif.Mm

/-! ## Counting over the threads -/

/-- How often `x` occurs among what the threads refer to. -/
def cnt {α : Type} [BEq α] (f : Pc → List α) (l : List Pc) (x : α) : Nat := (l.map (fun p => (f p).count x)).sum

theorem cnt_set {α : Type} [BEq α] (f : Pc → List α) (l : List Pc) (i : Nat) (p q : Pc) (x : α) (h : l[i]? = some p) :
    cnt f (l.set i q) x + (f p).count x = cnt f l x + (f q).count x := by
  induction l generalizing i with
  | nil => simp at h
  | cons b l ih =>
    cases i with
    | zero =>
      simp only [List.getElem?_cons_zero, Option.some.injEq] at h
      subst h
      simp only [cnt, List.set_cons_zero, List.map_cons, List.sum_cons]
      omega
    | succ i =>
      simp only [List.getElem?_cons_succ] at h
      have := ih i h
      simp only [cnt, List.set_cons_succ, List.map_cons, List.sum_cons] at this ⊢
      omega

theorem cnt_ge {α : Type} [BEq α] (f : Pc → List α) (l : List Pc) (i : Nat) (p : Pc) (x : α) (h : l[i]? = some p) : (f p).count x ≤ cnt f l x := by
  induction l generalizing i with
  | nil => simp at h
  | cons b l ih =>
    cases i with
    | zero => simp only [List.getElem?_cons_zero, Option.some.injEq] at h; subst h; simp [cnt]
    | succ i =>
      simp only [List.getElem?_cons_succ] at h
      have := ih i h
      simp only [cnt, List.map_cons, List.sum_cons] at this ⊢
      omega

theorem cnt_mono (f g : Pc → List Nat) (l : List Pc) (x : Nat) (h : ∀ p, (f p).count x ≤ (g p).count x) : cnt f l x ≤ cnt g l x := by
  induction l with
  | nil => simp [cnt]
  | cons b l ih =>
    have := h b
    simp only [cnt, List.map_cons, List.sum_cons] at ih ⊢
    omega

theorem cnt_add (f g k : Pc → List Nat) (l : List Pc) (x : Nat) (h : ∀ p, (f p).count x ≤ (g p).count x + (k p).count x) : cnt f l x ≤ cnt g l x + cnt k l x := by
  induction l with
  | nil => simp [cnt]
  | cons b l ih =>
    have := h b
    simp only [cnt, List.map_cons, List.sum_cons] at ih ⊢
    omega

theorem cnt_zero {α : Type} [BEq α] (f : Pc → List α) (l : List Pc) (x : α) (h : ∀ p ∈ l, f p = []) : cnt f l x = 0 := by
  induction l with
  | nil => simp [cnt]
  | cons b l ih =>
    have h1 := ih (fun p hp => h p (by simp [hp]))
    have h2 := h b (by simp)
    simp only [cnt, List.map_cons, List.sum_cons, h2, List.count_nil] at h1 ⊢
    omega

/-! ## The invariant -/

/-- The HAL blocks a thread in a call refers to. -/
def live : Pc → List Nat
  | .idle => []
  | .ins a _ => [a]
  | .fin a => [a]
  | .rm _ _ new _ => [new]

/-- The tree node a resizing thread has still to remove. -/
def stale : Pc → List (Nat × Nat)
  | .rm old m _ _ => [(old, m)]
  | _ => []

def staleKey (p : Pc) : List Nat := (stale p).map Prod.fst

/-- The keys a thread has, or will have, in the tree. -/
def resv : Pc → List Nat
  | .ins a _ => [a]
  | .rm old _ new _ => if new = old then [old] else [old, new]
  | _ => []

/-- The address the HAL returns is not one that another thread's `realloc` has given up but not yet removed from the tree. -/
def NoClash (s : St) : Op → Prop
  | .malloc _ a _ => ∀ p ∈ s.pcs, a ∉ staleKey p
  | .realloc _ _ _ new _ => ∀ p ∈ s.pcs, new ∉ staleKey p
  | .reallocZero _ _ _ => False
  | _ => True

structure Inv (ov : Ov) (s : St) : Prop where
  sum : s.used = expected ov s.tree
  tree : ∀ p, s.tree.count p = s.own.count p + cnt stale s.pcs p
  hal : ∀ a, s.hal.count a = (s.own.map Prod.fst).count a + cnt live s.pcs a
  once : ∀ a, s.hal.count a ≤ 1
  key : ∀ a, (s.own.map Prod.fst).count a + cnt resv s.pcs a ≤ 1

theorem inv_init (ov : Ov) (n : Nat) : Inv ov (init n) := by
  have h : ∀ p ∈ List.replicate n Pc.idle, live p = [] ∧ stale p = [] ∧ resv p = [] := by
    intro p hp; rw [List.mem_replicate] at hp; rw [hp.2]; exact ⟨rfl, rfl, rfl⟩
  refine ⟨rfl, ?_, ?_, by simp [init], ?_⟩
  · intro p; simp [init, cnt_zero _ _ _ (fun p hp => (h p hp).2.1)]
  · intro a; simp [init, cnt_zero _ _ _ (fun p hp => (h p hp).1)]
  · intro a; simp [init, cnt_zero _ _ _ (fun p hp => (h p hp).2.2)]

theorem expected_cons (ov : Ov) (p : Nat × Nat) (l : List (Nat × Nat)) : expected ov (p :: l) = (p.2 + ov : Nat) + expected ov l := by
  simp [expected]

theorem expected_perm (ov : Ov) {l l' : List (Nat × Nat)} (h : l.Perm l') : expected ov l = expected ov l' := by
  induction h with
  | nil => rfl
  | cons x _ ih => rw [expected_cons, expected_cons, ih]
  | swap x y l => rw [expected_cons, expected_cons, expected_cons, expected_cons]; omega
  | trans _ _ h1 h2 => rw [h1, h2]

theorem expected_erase (ov : Ov) {p : Nat × Nat} {l : List (Nat × Nat)} (h : p ∈ l) : expected ov (l.erase p) = expected ov l - (p.2 + ov : Nat) := by
  have := expected_perm ov (List.perm_cons_erase h)
  rw [expected_cons] at this
  omega

/-- Erasing a pair from a list takes its key out once. -/
theorem count_key_erase {p : Nat × Nat} {l : List (Nat × Nat)} (h : p ∈ l) (a : Nat) :
    ((l.erase p).map Prod.fst).count a + (if p.1 = a then 1 else 0) = (l.map Prod.fst).count a := by
  have := (List.perm_cons_erase h).map Prod.fst
  rw [this.count_eq a, List.map_cons, List.count_cons]
  simp

theorem count_cons' {α : Type} [BEq α] [LawfulBEq α] [DecidableEq α] (a x : α) (l : List α) : (a :: l).count x = l.count x + (if a = x then 1 else 0) := by
  rw [List.count_cons]; simp

theorem count_erase' {α : Type} [BEq α] [LawfulBEq α] [DecidableEq α] {a : α} {l : List α} (h : a ∈ l) (x : α) :
    (l.erase a).count x + (if a = x then 1 else 0) = l.count x := by
  rw [(List.perm_cons_erase h).count_eq x, count_cons']

theorem key_count_ge {l : List (Nat × Nat)} {a m m' : Nat} (h : (a, m) ∈ l) (h' : (a, m') ∈ l) (hne : m ≠ m') : 2 ≤ (l.map Prod.fst).count a := by
  have h1 := count_key_erase h a
  have h2 : (a, m') ∈ l.erase (a, m) := (List.mem_erase_of_ne (by simp; omega)).2 h'
  have h3 := List.count_pos_iff.2 (List.mem_map_of_mem (f := Prod.fst) h2)
  simp only [if_true] at h1
  simp only at h3
  omega

/-- The keys of the tree. -/
theorem tree_keys {l own : List (Nat × Nat)} {pcs : List Pc} (h : ∀ p, l.count p = own.count p + cnt stale pcs p) (a : Nat) :
    (l.map Prod.fst).count a = (own.map Prod.fst).count a + cnt staleKey pcs a := by
  have hp : l.Perm (own ++ pcs.flatMap stale) := by
    refine List.perm_iff_count.2 (fun p => ?_)
    rw [h p, List.count_append, List.count_flatMap]
    rfl
  rw [(hp.map Prod.fst).count_eq a, List.map_append, List.count_append, List.map_flatMap, List.count_flatMap]
  rfl

theorem staleKey_le (p : Pc) (x : Nat) : (staleKey p).count x ≤ (resv p).count x := by
  cases p with
  | rm old m new n =>
    simp only [staleKey, stale, resv, List.map_cons, List.map_nil]
    split <;> simp only [count_cons', List.count_nil] <;> omega
  | _ => simp [staleKey, stale]

theorem resv_le (p : Pc) (x : Nat) : (resv p).count x ≤ (live p).count x + (staleKey p).count x := by
  cases p with
  | rm old m new n =>
    simp only [staleKey, stale, resv, live, List.map_cons, List.map_nil]
    split
    · rename_i h; subst h; simp
    · simp only [count_cons', List.count_nil]; omega
  | _ => simp [resv, live]

/-- There is only one node for the block: the one that is looked for. -/
theorem find_right {ov : Ov} {s : St} (hi : Inv ov s) {a m m' : Nat} (hm : (a, m) ∈ s.tree) (hf : canFind s a m' = true) : m' = m := by
  simp only [canFind, Bool.or_eq_true, decide_eq_true_eq] at hf
  rcases hf with h | h
  · by_cases e : m' = m
    · exact e
    · have h1 := key_count_ge h hm e
      rw [tree_keys hi.tree a] at h1
      have h2 := hi.key a
      have h3 := cnt_mono staleKey resv s.pcs a (fun p => staleKey_le p a)
      omega
  · exact absurd (List.mem_map_of_mem (f := Prod.fst) hm) h

theorem own_in_tree {ov : Ov} {s : St} (hi : Inv ov s) {p : Nat × Nat} (h : p ∈ s.own) : p ∈ s.tree := by
  have h1 := hi.tree p
  have h2 := List.count_pos_iff.2 h
  exact List.count_pos_iff.1 (by omega)

theorem cnt_none (f : Pc → List Nat) (l : List Pc) (a : Nat) (h : ∀ p ∈ l, a ∉ f p) : cnt f l a = 0 := by
  induction l with
  | nil => simp [cnt]
  | cons b l ih =>
    have h1 := ih (fun p hp => h p (by simp [hp]))
    have h2 := List.count_eq_zero.2 (h b (by simp))
    simp only [cnt, List.map_cons, List.sum_cons] at h1 ⊢
    omega

theorem step_inv (ov : Ov) (s s' : St) (op : Op) (hi : Inv ov s) (hn : NoClash s op) (h : step ov s op = some s') : Inv ov s' := by
  cases op with
  | malloc t a n =>
    simp only [step] at h
    split at h
    · rename_i hc
      obtain ⟨hp, ha0, ha⟩ := hc
      cases h
      have h0 := List.count_eq_zero.2 ha
      have hs := cnt_none staleKey s.pcs a hn
      refine ⟨hi.sum, ?_, ?_, ?_, ?_⟩
      · intro p
        have h1 := hi.tree p
        have h2 := cnt_set stale s.pcs t _ (.ins a n) p hp
        simp only [stale, List.count_nil] at h2
        simp only; omega
      · intro x
        have h1 := hi.hal x
        have h2 := cnt_set live s.pcs t _ (.ins a n) x hp
        simp only [live, List.count_nil, count_cons'] at h2
        simp only [count_cons']; omega
      · intro x
        simp only [count_cons']
        have := hi.once x
        split
        · rename_i e; subst e; omega
        · omega
      · intro x
        have h1 := hi.key x
        have h2 := cnt_set resv s.pcs t _ (.ins a n) x hp
        simp only [resv, List.count_nil, count_cons'] at h2
        simp only
        by_cases e : a = x
        · subst e
          have h3 := hi.hal a
          have h4 := cnt_add resv live staleKey s.pcs a (fun p => resv_le p a)
          simp only [if_true] at h2
          omega
        · simp only [if_neg e] at h2; omega
    · cases h
  | insert t =>
    simp only [step] at h
    split at h
    · rename_i a n hp
      cases h
      refine ⟨?_, ?_, ?_, hi.once, ?_⟩
      · simp only [insNode, expected_cons, hi.sum]; omega
      · intro p
        have h1 := hi.tree p
        have h2 := cnt_set stale s.pcs t _ .idle p hp
        simp only [stale, List.count_nil] at h2
        simp only [insNode, count_cons']; omega
      · intro x
        have h1 := hi.hal x
        have h2 := cnt_set live s.pcs t _ .idle x hp
        simp only [live, List.count_nil, count_cons'] at h2
        simp only [insNode, List.map_cons, count_cons']; omega
      · intro x
        have h1 := hi.key x
        have h2 := cnt_set resv s.pcs t _ .idle x hp
        simp only [resv, List.count_nil, count_cons'] at h2
        simp only [List.map_cons, count_cons']; omega
    · cases h
  | free t a n m =>
    simp only [step] at h
    split at h
    · rename_i hc
      obtain ⟨hp, ho, hf⟩ := hc
      have hin := own_in_tree hi ho
      have hmn := find_right hi hin hf
      subst hmn
      cases h
      refine ⟨?_, ?_, ?_, ?_, ?_⟩
      · simp only [delNode, if_pos hin, expected_erase ov hin, hi.sum]
      · intro p
        have h1 := hi.tree p
        have h2 := cnt_set stale s.pcs t _ (.fin a) p hp
        have h3 := count_erase' hin p
        have h4 := count_erase' ho p
        simp only [stale, List.count_nil] at h2
        simp only [delNode, if_pos hin]; omega
      · intro x
        have h1 := hi.hal x
        have h2 := cnt_set live s.pcs t _ (.fin a) x hp
        have h4 := count_key_erase ho x
        simp only [live, List.count_nil, count_cons'] at h2
        simp only at h4
        simp only [delNode, if_pos hin]; omega
      · intro x; simp only [delNode, if_pos hin]; exact hi.once x
      · intro x
        have h1 := hi.key x
        have h2 := cnt_set resv s.pcs t _ (.fin a) x hp
        have h4 := count_key_erase ho x
        simp only [resv, List.count_nil] at h2
        simp only; omega
    · cases h
  | halFree t =>
    simp only [step] at h
    split at h
    · rename_i a hp
      cases h
      have hin : a ∈ s.hal := by
        have h1 := hi.hal a
        have h2 := cnt_ge live s.pcs t _ a hp
        simp only [live, count_cons', if_true, List.count_nil] at h2
        exact List.count_pos_iff.1 (by omega)
      refine ⟨hi.sum, ?_, ?_, ?_, ?_⟩
      · intro p
        have h1 := hi.tree p
        have h2 := cnt_set stale s.pcs t _ .idle p hp
        simp only [stale, List.count_nil] at h2
        simp only; omega
      · intro x
        have h1 := hi.hal x
        have h2 := cnt_set live s.pcs t _ .idle x hp
        have h3 := count_erase' hin x
        simp only [live, List.count_nil, count_cons'] at h2
        simp only; omega
      · intro x
        have h3 := count_erase' hin x
        have := hi.once x
        simp only; omega
      · intro x
        have h1 := hi.key x
        have h2 := cnt_set resv s.pcs t _ .idle x hp
        simp only [resv, List.count_nil] at h2
        simp only; omega
    · cases h
  | realloc t old m new n =>
    simp only [step] at h
    split at h
    · rename_i hc
      obtain ⟨hp, ho, hn0, hnew⟩ := hc
      cases h
      have hs := cnt_none staleKey s.pcs new hn
      have hko := List.count_pos_iff.2 (List.mem_map_of_mem (f := Prod.fst) ho)
      simp only at hko
      have hoh : old ∈ s.hal := List.count_pos_iff.1 (by have := hi.hal old; omega)
      refine ⟨hi.sum, ?_, ?_, ?_, ?_⟩
      · intro p
        have h1 := hi.tree p
        have h2 := cnt_set stale s.pcs t _ (.rm old m new n) p hp
        have h4 := count_erase' ho p
        simp only [stale, List.count_nil, count_cons'] at h2
        simp only; omega
      · intro x
        have h1 := hi.hal x
        have h2 := cnt_set live s.pcs t _ (.rm old m new n) x hp
        have h3 := count_erase' hoh x
        have h4 := count_key_erase ho x
        simp only [live, List.count_nil, count_cons'] at h2
        simp only [count_cons'] at h4 ⊢; omega
      · intro x
        have h3 := count_erase' hoh x
        have h5 := hi.once x
        simp only [count_cons']
        rcases hnew with e | e
        · subst e; omega
        · by_cases ex : new = x
          · subst ex
            have := List.count_eq_zero.2 e
            simp only [if_true]; omega
          · simp only [if_neg ex]; omega
      · intro x
        have h1 := hi.key x
        have h2 := cnt_set resv s.pcs t _ (.rm old m new n) x hp
        have h4 := count_key_erase ho x
        simp only at h4 ⊢
        by_cases e : new = old
        · simp only [resv, if_pos e, List.count_nil, count_cons'] at h2
          omega
        · have hnh : new ∉ s.hal := hnew.resolve_left e
          simp only [resv, if_neg e, List.count_nil, count_cons'] at h2
          by_cases ex : new = x
          · subst ex
            have h6 := hi.hal new
            have h7 := List.count_eq_zero.2 hnh
            have h8 := cnt_add resv live staleKey s.pcs new (fun p => resv_le p new)
            have e' : ¬ old = new := fun h => e h.symm
            simp only [if_true, if_neg e'] at h2 h4
            omega
          · simp only [if_neg ex] at h2
            omega
    · cases h
  | remove t m' =>
    simp only [step] at h
    split at h
    · rename_i old m new n hp
      split at h
      · rename_i hf
        have hin : (old, m) ∈ s.tree := by
          have h1 := hi.tree (old, m)
          have h2 := cnt_ge stale s.pcs t _ (old, m) hp
          simp only [stale, count_cons', if_true, List.count_nil] at h2
          exact List.count_pos_iff.1 (by omega)
        have hmn := find_right hi hin hf
        subst hmn
        cases h
        refine ⟨?_, ?_, ?_, ?_, ?_⟩
        · simp only [delNode, if_pos hin, expected_erase ov hin, hi.sum]
        · intro p
          have h1 := hi.tree p
          have h2 := cnt_set stale s.pcs t _ (.ins new n) p hp
          have h3 := count_erase' hin p
          simp only [stale, List.count_nil, count_cons'] at h2
          simp only [delNode, if_pos hin]; omega
        · intro x
          have h1 := hi.hal x
          have h2 := cnt_set live s.pcs t _ (.ins new n) x hp
          simp only [live, List.count_nil, count_cons'] at h2
          simp only [delNode, if_pos hin]; omega
        · intro x; simp only [delNode, if_pos hin]; exact hi.once x
        · intro x
          have h1 := hi.key x
          have h2 := cnt_set resv s.pcs t _ (.ins new n) x hp
          simp only [delNode, if_pos hin]
          by_cases e : new = old
          · simp only [resv, if_pos e, List.count_nil, count_cons'] at h2
            subst e; omega
          · simp only [resv, if_neg e, List.count_nil, count_cons'] at h2
            omega
      · cases h
    · cases h
  | reallocZero t old m => exact absurd hn id

/-- The condition holds at every step. -/
def Along (ov : Ov) : St → List Op → Prop
  | _, [] => True
  | s, op :: ops => NoClash s op ∧ ∀ s', step ov s op = some s' → Along ov s' ops

theorem run_inv (ov : Ov) (ops : List Op) : ∀ (s s' : St), Inv ov s → Along ov s ops → run ov s ops = some s' → Inv ov s' := by
  induction ops with
  | nil => intro s s' hi _ h; cases h; exact hi
  | cons op ops ih =>
    intro s s' hi ha h
    simp only [run] at h
    split at h
    · cases h
    · rename_i s1 h1
      exact ih s1 s' (step_inv ov s s1 op hi ha.1 h1) (ha.2 s1 h1) h

/-! ## C62 -/

/-- All threads are outside the allocation functions. -/
def Quiet (s : St) : Prop := ∀ p ∈ s.pcs, p = .idle

/-- **C62.**  For every interleaving of any number of threads in which the HAL does not hand out, during a `realloc`, the address that this `realloc` has just given
up: whenever no call is in progress, the counter is exactly the sum of the sizes of the blocks in use plus one bookkeeping node for each. -/
theorem C62_exact_partial (ov : Ov) (threads : Nat) (ops : List Op) (s : St) (h : run ov (init threads) ops = some s) (hn : Along ov (init threads) ops) (hq : Quiet s) :
    s.used = expected ov s.own ∧ s.tree.Perm s.own := by
  have hi := run_inv ov ops _ s (inv_init ov threads) hn h
  have hp : s.tree.Perm s.own := by
    refine List.perm_iff_count.2 (fun p => ?_)
    rw [hi.tree p, cnt_zero stale s.pcs p (fun q hq' => by rw [hq q hq']; rfl)]
    omega
  exact ⟨by rw [hi.sum]; exact expected_perm ov hp, hp⟩

/-- **C62**, the end: when everything is freed the counter is 0 again. -/
theorem C62_zero_partial (ov : Ov) (threads : Nat) (ops : List Op) (s : St) (h : run ov (init threads) ops = some s) (hn : Along ov (init threads) ops) (hq : Quiet s)
    (ho : s.own = []) : s.used = 0 := by
  rw [(C62_exact_partial ov threads ops s h hn hq).1, ho]; rfl

/-- Without `realloc` there is no condition: any interleaving of `malloc` and `free`. -/
theorem C62_no_realloc (ov : Ov) (threads : Nat) (ops : List Op) (s : St) (h : run ov (init threads) ops = some s)
    (hr : ∀ op ∈ ops, (∃ t a n, op = .malloc t a n) ∨ (∃ t, op = .insert t) ∨ (∃ t a n m, op = .free t a n m) ∨ (∃ t, op = .halFree t)) (hq : Quiet s) :
    s.used = expected ov s.own := by
  have key : ∀ (ops : List Op) (s : St), (∀ p ∈ s.pcs, staleKey p = []) →
      (∀ op ∈ ops, (∃ t a n, op = .malloc t a n) ∨ (∃ t, op = .insert t) ∨ (∃ t a n m, op = .free t a n m) ∨ (∃ t, op = .halFree t)) → Along ov s ops := by
    intro ops
    induction ops with
    | nil => intro s _ _; trivial
    | cons op ops ih =>
      intro s hs hr
      have hset : ∀ t q, staleKey q = [] → ∀ p ∈ s.pcs.set t q, staleKey p = [] := by
        intro t q hq p hp
        rcases List.mem_or_eq_of_mem_set hp with h | h
        · exact hs p h
        · rw [h]; exact hq
      refine ⟨?_, fun s' hs' => ih s' ?_ (fun o ho => hr o (by simp [ho]))⟩
      · rcases hr op (by simp) with ⟨t, a, n, e⟩ | ⟨t, e⟩ | ⟨t, a, n, m, e⟩ | ⟨t, e⟩ <;> subst e
        · intro p hp; rw [hs p hp]; simp
        · trivial
        · trivial
        · trivial
      · rcases hr op (by simp) with ⟨t, a, n, e⟩ | ⟨t, e⟩ | ⟨t, a, n, m, e⟩ | ⟨t, e⟩ <;> subst e
        · simp only [step] at hs'
          split at hs'
          · cases hs'; exact hset t _ rfl
          · cases hs'
        · simp only [step] at hs'
          split at hs'
          · cases hs'; exact hset t _ rfl
          · cases hs'
        · simp only [step] at hs'
          split at hs'
          · cases hs'; exact hset t _ rfl
          · cases hs'
        · simp only [step] at hs'
          split at hs'
          · cases hs'; exact hset t _ rfl
          · cases hs'
  refine (C62_exact_partial ov threads ops s h (key ops _ ?_ hr) hq).1
  intro p hp
  simp only [init, List.mem_replicate] at hp
  rw [hp.2]; rfl

/-! ## Where C62 fails -/

/-- Thread 0 resizes block 100 from 10 to 20 bytes, the HAL moves it to 300; thread 1 is given 100 for a block of 1000 bytes before the old
node is removed; then thread 0 removes a node with address 100: the new one. -/
def raceOps : List Op := [.malloc 0 200 5, .insert 0, .malloc 0 100 10, .insert 0, .realloc 0 100 10 300 20, .malloc 1 100 1000, .insert 1, .remove 0 1000, .insert 0]

/-- **C62** fails: no call is in progress, the program has 1025 bytes, the counter says 35 (nodes counted apart). -/
theorem C62_race (ov : Ov) : ∃ s, run ov (init 2) raceOps = some s ∧ Quiet s ∧ s.own = [(300, 20), (100, 1000), (200, 5)] ∧
    s.used = 35 + 3 * (ov : Int) ∧ s.used ≠ expected ov s.own := by
  refine ⟨⟨[100, 300, 200], [(300, 20), (100, 10), (200, 5)], 35 + 3 * (ov : Int), [(300, 20), (100, 1000), (200, 5)], [.idle, .idle]⟩, ?_, ?_, rfl, rfl, ?_⟩
  · simp [raceOps, run, step, init, insNode, delNode, canFind, List.replicate]
    omega
  · intro p hp; simpa using hp
  · simp only [expected, List.map_cons, List.map_nil, List.sum_cons, List.sum_nil]; omega

/-- The comparison of the tree (`__mm_ptr_cmp`, mm.c:51-69). -/
def ptrCmp (x y : Nat × Nat) : Int := if x.1 > y.1 then 1 else if x.1 < y.1 then -1 else 0

/-- The red-black tree indeed takes out the wrong node: with block 200 as the root and 100 on its left, a second node 100 is rotated above the first one. -/
theorem C62_tree_choice : ∃ r1 r2 r3 r4, (RBTree.Root.init : RBTree.Root (Nat × Nat)).insertNode ptrCmp (200, 5) = some r1 ∧ r1.insertNode ptrCmp (100, 10) = some r2 ∧
    r2.insertNode ptrCmp (100, 1000) = some r3 ∧ r3.remove ptrCmp (100, 0) = some (r4, some (100, 1000)) := by
  refine ⟨_, _, _, _, rfl, rfl, rfl, rfl⟩

/-- **C62** fails for `aosl_realloc (p, 0)` on systems whose `realloc` then frees the block and returns NULL: the block stays counted for ever. -/
theorem C62_realloc_zero (ov : Ov) : ∃ s, run ov (init 1) [.malloc 0 100 10, .insert 0, .reallocZero 0 100 10] = some s ∧ Quiet s ∧ s.own = [] ∧ s.used = 10 + (ov : Int) := by
  refine ⟨⟨[], [(100, 10)], 10 + (ov : Int), [], [.idle]⟩, ?_, ?_, rfl, rfl⟩
  · simp [run, step, init, insNode]
  · intro p hp; simpa using hp

/-! ## Non-vacuity -/

/-- A `realloc` that moves a block while another thread allocates and frees. -/
def okOps : List Op := [.malloc 0 100 10, .insert 0, .malloc 1 200 7, .realloc 0 100 10 300 20, .insert 1, .free 1 200 7 7, .remove 0 10, .halFree 1, .insert 0]

example : (run 48 (init 2) okOps).map (fun s => (s.used, s.own, s.pcs)) = some (68, [(300, 20)], [.idle, .idle]) := by decide +kernel

example : Along 48 (init 2) okOps := by
  simp [okOps, Along, step, init, NoClash, insNode, delNode, canFind, staleKey, stale, List.replicate]

end Verif.Mm
