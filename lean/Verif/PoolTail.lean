import Verif.PoolProps

/-! # Pool tail calls (C48) -/

namespace Verif.Pool

/-- Promises of tail call `p` not yet taken up, in all queues. Models no code of its own. -/
def total (p : Nat) (qs : List Q) : Nat := (qs.map (fun x => x.pend.count (.promise p))).sum

theorem total_set {qs : List Q} {q : Nat} {x : Q} (h : qs[q]? = some x) (y : Q) (p : Nat) :
    total p (qs.set q y) + x.pend.count (.promise p) = total p qs + y.pend.count (.promise p) := by
  induction qs generalizing q with
  | nil => simp at h
  | cons a as ih =>
    cases q with
    | zero => simp at h; subst h; simp [total]; omega
    | succ q =>
      simp at h
      have := ih h
      simp only [total, List.set_cons_succ, List.map_cons, List.sum_cons] at this ⊢
      omega

theorem total_set_eq {qs : List Q} {q : Nat} {x : Q} (h : qs[q]? = some x) (y : Q) (hy : ∀ p, y.pend.count (.promise p) = x.pend.count (.promise p)) (p : Nat) :
    total p (qs.set q y) = total p qs := by
  have := total_set h y p
  have := hy p
  omega

theorem total_ge {qs : List Q} {q : Nat} {x : Q} (h : qs[q]? = some x) (p : Nat) : x.pend.count (.promise p) ≤ total p qs := by
  induction qs generalizing q with
  | nil => simp at h
  | cons a as ih =>
    cases q with
    | zero => simp at h; subst h; simp [total]
    | succ q =>
      simp at h
      have := ih h
      simp only [total, List.map_cons, List.sum_cons] at this ⊢
      omega

theorem total_ge2 {qs : List Q} {q r : Nat} {x y : Q} (hq : qs[q]? = some x) (hr : qs[r]? = some y) (hne : q ≠ r) (p : Nat) :
    x.pend.count (.promise p) + y.pend.count (.promise p) ≤ total p qs := by
  have h1 := total_set hq { x with pend := [] } p
  have h2 : (qs.set q { x with pend := [] })[r]? = some y := by rw [List.getElem?_set_ne hne]; exact hr
  have h3 := total_ge h2 p
  simp at h1
  omega

theorem total_append (qs rs : List Q) (p : Nat) : total p (qs ++ rs) = total p qs + total p rs := by simp [total]

theorem total_zero_pend {qs : List Q} (h : ∀ x ∈ qs, x.pend = []) (p : Nat) : total p qs = 0 := by
  induction qs with
  | nil => rfl
  | cons a as ih =>
    have h1 := ih (fun x hx => h x (List.mem_cons_of_mem _ hx))
    have h2 := h a (by simp)
    simp only [total, List.map_cons, List.sum_cons] at h1 ⊢
    simp [h2]; simpa using h1

theorem count_in (ids : List Nat) (n : Nat) (hn : ids.Nodup) (hv : ∀ i ∈ ids, i < n) : (List.range n).countP (fun i => decide (i ∈ ids)) = ids.length := by
  induction ids with
  | nil => simp
  | cons a as ih =>
    obtain ⟨h1, h2⟩ := List.nodup_cons.1 hn
    have := ih h2 (fun i hi => hv i (List.mem_cons_of_mem _ hi))
    have hc : (List.range n).count a = 1 := by
      rw [List.Nodup.count List.nodup_range, if_pos (List.mem_range.2 (hv a (by simp)))]
    have key : ∀ l : List Nat, l.countP (fun i => decide (i ∈ a :: as)) = l.count a + l.countP (fun i => decide (i ∈ as)) := by
      intro l
      induction l with
      | nil => simp
      | cons b bs ihb =>
        simp only [List.countP_cons, List.count_cons, ihb]
        by_cases hb : b = a
        · subst hb; simp [h1]; omega
        · simp [hb]; omega
    rw [key, hc, this, List.length_cons]; omega

theorem total_mapIdx (qs : List Q) (ids : List Nat) (p k : Nat) :
    total p (qs.mapIdx (fun i x => if i + k ∈ ids then { x with pend := x.pend ++ [.promise p] } else x)) =
      total p qs + ((List.range qs.length).countP (fun i => decide (i + k ∈ ids))) := by
  induction qs generalizing k with
  | nil => simp [total]
  | cons a as ih =>
    have := ih (k + 1)
    rw [List.mapIdx_cons]
    simp only [total, List.map_cons, List.sum_cons, List.length_cons] at this ⊢
    rw [List.range_succ_eq_map, List.countP_cons, List.countP_map]
    have e1 : (fun i x => if i + 1 + k ∈ ids then ({ x with pend := x.pend ++ [.promise p] } : Q) else x) =
        (fun i (x : Q) => if i + (k + 1) ∈ ids then ({ x with pend := x.pend ++ [.promise p] } : Q) else x) := by
      funext i x; rw [show i + 1 + k = i + (k + 1) by omega]
    have e2 : ((fun i => decide (i + k ∈ ids)) ∘ Nat.succ) = (fun i => decide (i + (k + 1) ∈ ids)) := by
      funext i; simp only [Function.comp]; rw [show i.succ + k = i + (k + 1) by omega]
    rw [e1, e2, this]
    simp only [Nat.zero_add]
    by_cases h : k ∈ ids
    · simp only [h, if_true, List.count_append, List.count_singleton, decide_true]; simp; omega
    · simp only [h, if_false, decide_false]; simp; omega

theorem total_mapIdx_ne (qs : List Q) (ids : List Nat) (p p' : Nat) (hp : p ≠ p') :
    total p (qs.mapIdx (fun i x => if i ∈ ids then { x with pend := x.pend ++ [.promise p'] } else x)) = total p qs := by
  unfold total
  congr 1
  apply List.ext_getElem?
  intro i
  simp only [List.getElem?_map, List.getElem?_mapIdx]
  cases qs[i]? with
  | none => rfl
  | some x =>
    simp only [Option.map_some, Option.some.injEq]
    split
    · simp only [List.count_append, List.count_singleton]
      simp [Ne.symm hp]
    · rfl

/-- Splitting a log that ends with events of other kinds. -/
theorem split_app {l evs a b : List Ev} {x : Ev} (h : l ++ evs = a ++ x :: b) (hx : x ∉ evs) : ∃ b', l = a ++ x :: b' ∧ b = b' ++ evs := by
  rcases List.append_eq_append_iff.1 h with ⟨c, h1, h2⟩ | ⟨c, h1, h2⟩
  · exact absurd (by rw [h2]; simp) hx
  · cases c with
    | nil => simp at h2; exact absurd (by rw [← h2]; simp) hx
    | cons y c =>
      simp at h2
      obtain ⟨rfl, h2⟩ := h2
      exact ⟨c, h1, h2⟩

/-- For the statements and proofs about the models imported; models no code of its own. -/
structure TInv (s : St) : Prop where
  /-- a function is finished or still in its queue -/
  J : ∀ (q j : Nat), .queued q j ∈ s.log → .finished j ∈ s.log ∨ ∃ x : Q, s.qs[q]? = some x ∧ [.job j].Sublist x.items
  /-- a function added before a tail call is finished or in front of the promise of the call -/
  B : ∀ (a b : List Ev) (p : Nat) (ids : List Nat) (q j : Nat), s.log = a ++ .tail p ids :: b → .queued q j ∈ a → q ∈ ids →
    .finished j ∈ s.log ∨ ∃ x : Q, s.qs[q]? = some x ∧ [.job j, .promise p].Sublist x.items
  N : ∀ (p : Nat) (c : Int), s.cnt[p]? = some c → c = total p s.qs
  Z : ∀ p, s.cnt.length ≤ p → total p s.qs = 0 ∧ s.log.count (.tailRan p) = 0 ∧ ∀ ids, .tail p ids ∉ s.log
  R : ∀ p, p < s.cnt.length → s.log.count (.tailRan p) = if total p s.qs = 0 then 1 else 0
  T : ∀ p, p < s.cnt.length → ∃ ids, .tail p ids ∈ s.log
  O : ∀ (a b : List Ev) (p : Nat), s.log = a ++ .tailRan p :: b → (∃ ids, .tail p ids ∈ a) ∧
    ∀ a1 ids a2, a = a1 ++ .tail p ids :: a2 → ∀ q ∈ ids, ∀ j, .queued q j ∈ a1 → .finished j ∈ a

theorem t_frame {s s' : St} {evs : List Ev} (hi : TInv s) (hlog : s'.log = s.log ++ evs)
    (hevs : ∀ e ∈ evs, ∀ p ids, e ≠ .tail p ids ∧ e ≠ .tailRan p) (hcnt : s'.cnt = s.cnt) (htot : ∀ p, total p s'.qs = total p s.qs)
    (hq : ∀ (q j : Nat) (x : Q) (rest : List Item), s.qs[q]? = some x → (Item.job j :: rest).Sublist x.items →
      .finished j ∈ s'.log ∨ ∃ x', s'.qs[q]? = some x' ∧ (Item.job j :: rest).Sublist x'.items)
    (hJ : ∀ q j, .queued q j ∈ evs → ∃ x : Q, s'.qs[q]? = some x ∧ [.job j].Sublist x.items) : TInv s' := by
  have ht : ∀ p ids, .tail p ids ∉ evs := fun p ids h => (hevs _ h p ids).1 rfl
  have hr : ∀ p, .tailRan p ∉ evs := fun p h => (hevs _ h p []).2 rfl
  have hsub : ∀ e, e ∈ s.log → e ∈ s'.log := fun e h => by rw [hlog]; exact List.mem_append_left _ h
  have hcr : ∀ p, s'.log.count (.tailRan p) = s.log.count (.tailRan p) := by
    intro p; rw [hlog, List.count_append, List.count_eq_zero.2 (hr p)]; rfl
  refine ⟨?_, ?_, ?_, ?_, ?_, ?_, ?_⟩
  · intro q j h
    rw [hlog] at h
    rcases List.mem_append.1 h with h | h
    · rcases hi.J q j h with h | ⟨x, h1, h2⟩
      · exact Or.inl (hsub _ h)
      · exact hq q j x [] h1 h2
    · exact Or.inr (hJ q j h)
  · intro a b p ids q j h h1 h2
    rw [hlog] at h
    obtain ⟨b', h3, -⟩ := split_app h (ht p ids)
    rcases hi.B a b' p ids q j h3 h1 h2 with h | ⟨x, h4, h5⟩
    · exact Or.inl (hsub _ h)
    · exact hq q j x _ h4 h5
  · intro p c h; rw [hcnt] at h; rw [htot]; exact hi.N p c h
  · intro p h
    rw [hcnt] at h
    obtain ⟨h1, h2, h3⟩ := hi.Z p h
    refine ⟨by rw [htot]; exact h1, by rw [hcr]; exact h2, fun ids h => ?_⟩
    rw [hlog] at h
    rcases List.mem_append.1 h with h | h
    · exact h3 ids h
    · exact ht p ids h
  · intro p h; rw [hcnt] at h; rw [hcr, htot]; exact hi.R p h
  · intro p h
    rw [hcnt] at h
    obtain ⟨ids, h⟩ := hi.T p h
    exact ⟨ids, hsub _ h⟩
  · intro a b p h
    rw [hlog] at h
    obtain ⟨b', h3, -⟩ := split_app h (hr p)
    exact hi.O a b' p h3

/-- Frame for a change of one queue that keeps its items. -/
theorem hq_set {s : St} {q : Nat} {x y : Q} (hx : s.qs[q]? = some x) (hs : x.items.Sublist y.items) {P : Nat → Prop} :
    ∀ (r j : Nat) (z : Q) (rest : List Item), s.qs[r]? = some z → (Item.job j :: rest).Sublist z.items →
      P j ∨ ∃ x', (s.qs.set q y)[r]? = some x' ∧ (Item.job j :: rest).Sublist x'.items := by
  intro r j z rest h1 h2
  right
  by_cases hr : r = q
  · subst hr
    rw [hx] at h1; cases h1
    exact ⟨y, by rw [List.getElem?_set_self (lt_of_get hx)], h2.trans hs⟩
  · exact ⟨z, by rw [List.getElem?_set_ne (Ne.symm hr)]; exact h1, h2⟩

theorem t_modQ {s : St} (hi : TInv s) (q : Nat) (f : Q → Q) (hf : ∀ x, (f x).pend = x.pend ∧ (f x).run = x.run) : TInv (modQ s q f) := by
  simp only [modQ]
  split
  · rename_i x hx
    refine t_frame (evs := []) hi (by simp) (by simp) rfl (fun p => total_set_eq hx _ (by simp [(hf x).1]) p) (hq_set hx ?_) (by simp)
    rw [Q.items, Q.items, (hf x).1, (hf x).2]; exact List.Sublist.refl _
  · exact hi

theorem t_addQ {s : St} (hi : TInv s) : TInv (addQ s) := by
  refine t_frame (evs := []) hi (by simp [addQ]) (by simp) rfl (fun p => by simp [addQ, total, newQ]) ?_ (by simp)
  intro q j x rest h1 h2
  exact Or.inr ⟨x, by simp only [addQ]; rw [List.getElem?_append_left (lt_of_get h1)]; exact h1, h2⟩

/-- Only the pool, flags or events of other kinds change. -/
theorem t_log {s s' : St} (hi : TInv s) (evs : List Ev) (hlog : s'.log = s.log ++ evs)
    (hevs : ∀ e ∈ evs, ∀ p ids, e ≠ .tail p ids ∧ e ≠ .tailRan p) (hqd : ∀ e ∈ evs, ∀ q j, e ≠ .queued q j) (hcnt : s'.cnt = s.cnt) (hqs : s'.qs = s.qs) : TInv s' :=
  t_frame hi hlog hevs hcnt (by simp [hqs]) (fun q j x rest h1 h2 => Or.inr ⟨x, by rw [hqs]; exact h1, h2⟩) (fun q j h => absurd rfl (hqd _ h q j))

/-- Terminating queues. -/
theorem t_mapIdx {s : St} (hi : TInv s) (ids : List Nat) (pool : List Entry) :
    TInv { s with pool := pool, qs := s.qs.mapIdx (fun i x => if i ∈ ids then { x with term := true } else x) } := by
  refine t_frame (evs := []) hi (by simp) (by simp) rfl ?_ ?_ (by simp)
  · intro p
    unfold total
    congr 1
    apply List.ext_getElem?
    intro i
    simp only [List.getElem?_map, List.getElem?_mapIdx]
    cases s.qs[i]? with
    | none => rfl
    | some x => simp only [Option.map_some, Option.some.injEq]; split <;> rfl
  · intro q j x rest h1 h2
    right
    refine ⟨if q ∈ ids then { x with term := true } else x, ?_, ?_⟩
    · simp only [List.getElem?_mapIdx, h1, Option.map_some]
    · split <;> exact h2

theorem t_setWaits {s : St} (hi : TInv s) (c : Option Nat) (w : Bool) (l : List Nat) : TInv (setWaits s c w l) := by
  cases c with
  | none => exact hi
  | some c =>
    simp only [setWaits]
    split
    · exact t_modQ hi c _ (fun _ => ⟨rfl, rfl⟩)
    · exact hi

theorem t_shrink {s : St} (hi : TInv s) (c : Option Nat) (w : Bool) : TInv (shrink s c w) := by
  simp only [shrink]
  split
  · split
    · split
      · rename_i e _ _
        refine t_log (t_setWaits (t_modQ (t_log (s' := { s with pool := s.pool.dropLast }) hi [] (by simp) (by simp) (by simp) rfl rfl) e.q (fun x => { x with term := true }) (fun _ => ⟨rfl, rfl⟩)) c w [e.q])
          [.shrunk e.q] rfl (by simp) (by simp) rfl rfl
      · exact t_log hi [.shrinkPerm] rfl (by simp) (by simp) rfl rfl
    · exact t_log hi [.shrinkPerm] rfl (by simp) (by simp) rfl rfl
  · exact t_log hi [.shrinkPerm] rfl (by simp) (by simp) rfl rfl

theorem t_shrinkAll {s : St} (hi : TInv s) (c : Option Nat) (w : Bool) : TInv (shrinkAll s c w) :=
  t_log (t_setWaits (t_mapIdx hi (s.pool.map (·.q)) []) c w _) [.shrunkAll] rfl (by simp) (by simp) rfl rfl

/-- A tail call on a non-empty pool. -/
theorem t_tail {s : St} (hi : TInv s) (ids : List Nat) (hn : ids.Nodup) (hv : ∀ i ∈ ids, i < s.qs.length) (hne : ids ≠ []) :
    TInv { s with cnt := s.cnt ++ [(ids.length : Int)], log := s.log ++ [.tail s.cnt.length ids],
                  qs := s.qs.mapIdx (fun i x => if i ∈ ids then { x with pend := x.pend ++ [.promise s.cnt.length] } else x) } := by
  obtain ⟨hz1, hz2, hz3⟩ := hi.Z s.cnt.length (Nat.le_refl _)
  have htot : ∀ p, total p (s.qs.mapIdx (fun i x => if i ∈ ids then { x with pend := x.pend ++ [.promise s.cnt.length] } else x)) =
      total p s.qs + (if p = s.cnt.length then ids.length else 0) := by
    intro p
    by_cases hp : p = s.cnt.length
    · subst hp
      have := total_mapIdx s.qs ids s.cnt.length 0
      simp only [Nat.add_zero] at this
      rw [this, count_in ids _ hn hv]; simp
    · rw [total_mapIdx_ne _ _ _ _ hp]; simp [hp]
  have hit : ∀ (q : Nat) (x : Q), s.qs[q]? = some x →
      ∃ x', (s.qs.mapIdx (fun i x => if i ∈ ids then { x with pend := x.pend ++ [.promise s.cnt.length] } else x))[q]? = some x' ∧ x.items.Sublist x'.items ∧
        (q ∈ ids → x'.items = x.items ++ [.promise s.cnt.length]) := by
    intro q x hx
    refine ⟨if q ∈ ids then { x with pend := x.pend ++ [.promise s.cnt.length] } else x, by simp only [List.getElem?_mapIdx, hx, Option.map_some], ?_, ?_⟩
    · split
      · simp only [Q.items, ← List.append_assoc]; exact List.sublist_append_left _ _
      · exact List.Sublist.refl _
    · intro h; rw [if_pos h]; simp only [Q.items, ← List.append_assoc]
  have hl : 0 < ids.length := by cases ids with
    | nil => exact absurd rfl hne
    | cons a as => simp
  have nr : ∀ p, Ev.tailRan p ∉ [Ev.tail s.cnt.length ids] := by simp
  refine ⟨?_, ?_, ?_, ?_, ?_, ?_, ?_⟩
  · intro q j h
    simp only [List.mem_append, List.mem_singleton, reduceCtorEq, or_false] at h ⊢
    rcases hi.J q j h with h | ⟨x, h1, h2⟩
    · exact Or.inl h
    · obtain ⟨x', k1, k2, -⟩ := hit q x h1
      exact Or.inr ⟨x', k1, h2.trans k2⟩
  · intro a b p ids' q j h h1 h2
    simp only [List.mem_append, List.mem_singleton, reduceCtorEq, or_false] at h ⊢
    by_cases hm : Ev.tail p ids' = Ev.tail s.cnt.length ids
    · -- the new tail event: it does not occur before
      injection hm with e1 e2
      subst e2; subst e1
      have ha : a = s.log := by
        rcases List.append_eq_append_iff.1 h with ⟨c, h3, h4⟩ | ⟨c, h3, h4⟩
        · cases c with
          | nil => simpa using h3
          | cons y c =>
            have := congrArg List.length h4
            simp at this
        · cases c with
          | nil => simpa using h3.symm
          | cons y c =>
            simp at h4
            exfalso
            apply hz3 ids'
            rw [h3, ← h4.1]; simp
      subst ha
      rcases hi.J q j h1 with h | ⟨x, h3, h4⟩
      · exact Or.inl h
      · obtain ⟨x', k1, k2, k3⟩ := hit q x h3
        refine Or.inr ⟨x', k1, ?_⟩
        rw [k3 h2]
        exact List.Sublist.append h4 (List.Sublist.refl [Item.promise s.cnt.length])
    · obtain ⟨b', h3, -⟩ := split_app h (by simpa using hm)
      rcases hi.B a b' p ids' q j h3 h1 h2 with h | ⟨x, h4, h5⟩
      · exact Or.inl h
      · obtain ⟨x', k1, k2, -⟩ := hit q x h4
        exact Or.inr ⟨x', k1, h5.trans k2⟩
  · intro p c h
    simp only at h
    rw [htot]
    rcases get_append h with ⟨rfl, rfl⟩ | h
    · simp [hz1]
    · have h1 := lt_of_get h
      have := hi.N p c h
      rw [if_neg (by omega)]; simpa using this
  · intro p h
    simp at h
    obtain ⟨k1, k2, k3⟩ := hi.Z p (by omega)
    refine ⟨by rw [htot, k1, if_neg (by omega)], by simp [List.count_append, k2], fun i hm => ?_⟩
    simp only [List.mem_append, List.mem_singleton, Ev.tail.injEq] at hm
    rcases hm with hm | hm
    · exact k3 i hm
    · omega
  · intro p h
    simp at h
    rw [htot]
    simp only [List.count_append, List.count_eq_zero.2 (nr p), Nat.add_zero]
    by_cases hp : p = s.cnt.length
    · subst hp; rw [hz2, if_neg (by simp [hne])]
    · have := hi.R p (by omega); simp only [hp, if_false, Nat.add_zero]; exact this
  · intro p h
    simp at h
    by_cases hp : p = s.cnt.length
    · exact ⟨ids, by simp [hp]⟩
    · obtain ⟨i, hm⟩ := hi.T p (by omega); exact ⟨i, by simp [hm]⟩
  · intro a b p h
    obtain ⟨b', h3, -⟩ := split_app h (nr p)
    exact hi.O a b' p h3

/-- Taking up a promise. -/
theorem t_promise {s : St} (hi : TInv s) {q p : Nat} {x : Q} {rest : List Item} (hx : s.qs[q]? = some x) (hr : x.run = none)
    (hp : x.pend = .promise p :: rest) :
    TInv { s with qs := s.qs.set q { x with pend := rest, run := some (.promise p) }, cnt := s.cnt.set p ((s.cnt[p]?.getD 0) - 1),
                  log := if (s.cnt[p]?.getD 0) - 1 = 0 then s.log ++ [.tailRan p] else s.log } := by
  have hge := total_ge hx p
  have hcx : x.pend.count (.promise p) = rest.count (.promise p) + 1 := by rw [hp]; simp
  have hpl : p < s.cnt.length := by
    rcases Nat.lt_or_ge p s.cnt.length with h | h
    · exact h
    · have := (hi.Z p h).1; omega
  have hg : s.cnt[p]? = some s.cnt[p] := by simp [hpl]
  have hN := hi.N p _ hg
  have htot : ∀ r, total r (s.qs.set q { x with pend := rest, run := some (.promise p) }) + (if r = p then 1 else 0) = total r s.qs := by
    intro r
    have := total_set hx { x with pend := rest, run := some (.promise p) } r
    rw [hp, List.count_cons] at this
    by_cases h : r = p
    · subst h; simp at this ⊢; omega
    · have h' : ¬ p = r := fun e => h e.symm
      simp [h, h'] at this ⊢; omega
  have hits : x.items = ({ x with pend := rest, run := some (.promise p) } : Q).items := by simp [Q.items, hr, hp]
  have hqq := @hq_set s q x { x with pend := rest, run := some (.promise p) } hx (by rw [← hits]; exact List.Sublist.refl _) (fun j => Ev.finished j ∈ s.log)
  have hRp := hi.R p hpl
  have h1 := htot p
  simp only [if_true] at h1
  by_cases hc : (s.cnt[p]?.getD 0) - 1 = 0
  · simp only [hc, if_true]
    have htp : total p s.qs = 1 := by simp only [hg, Option.getD_some] at hc; omega
    have nf : ∀ j, Ev.finished j ∈ s.log ++ [Ev.tailRan p] ↔ Ev.finished j ∈ s.log := by simp
    have ntl : ∀ r ids, Ev.tail r ids ∉ [Ev.tailRan p] := by simp
    have hcnt : ∀ r, (s.log ++ [Ev.tailRan p]).count (.tailRan r) = s.log.count (.tailRan r) + (if r = p then 1 else 0) := by
      intro r
      rw [List.count_append, List.count_singleton]
      by_cases h : r = p
      · simp [h]
      · simp [h, Ne.symm h]
    refine ⟨?_, ?_, ?_, ?_, ?_, ?_, ?_⟩
    · intro r j h
      simp only [List.mem_append, List.mem_singleton, reduceCtorEq, or_false] at h ⊢
      rcases hi.J r j h with h | ⟨z, k1, k2⟩
      · exact Or.inl h
      · exact hqq r j z [] k1 k2
    · intro a b r ids t j h k1 k2
      obtain ⟨b', k3, -⟩ := split_app h (ntl r ids)
      rw [nf]
      rcases hi.B a b' r ids t j k3 k1 k2 with h | ⟨z, k4, k5⟩
      · exact Or.inl h
      · exact hqq t j z _ k4 k5
    · intro r c h
      have := htot r
      rcases get_set h with ⟨rfl, rfl⟩ | ⟨hne, h⟩
      · simp only at *; omega
      · have := hi.N r c h; simp [hne] at *; omega
    · intro r h
      simp at h
      obtain ⟨k1, k2, k3⟩ := hi.Z r h
      have := htot r
      refine ⟨by simp only; omega, by simp only [hcnt]; rw [if_neg (by omega)]; omega, fun ids h => ?_⟩
      simp at h; exact k3 ids h
    · intro r h
      simp at h
      have := htot r
      have := hi.R r h
      simp only [hcnt]
      by_cases e : r = p
      · subst e; simp only [if_true] at *; rw [if_pos (by omega), hRp, if_neg (by omega)]
      · have h5 := htot r; rw [if_neg e, Nat.add_zero] at h5; simp only [e, if_false, Nat.add_zero]; rw [h5]; exact this
    · intro r h
      simp at h
      obtain ⟨ids, hm⟩ := hi.T r h
      exact ⟨ids, by simp [hm]⟩
    · intro a b r h
      by_cases e : Ev.tailRan r = Ev.tailRan p
      · injection e with e; subst e
        have h0 : s.log.count (.tailRan r) = 0 := by rw [hRp, if_neg (by omega)]
        have ha : a = s.log := by
          rcases List.append_eq_append_iff.1 h with ⟨c, h3, h4⟩ | ⟨c, h3, h4⟩
          · cases c with
            | nil => simpa using h3
            | cons y c =>
              have := congrArg List.length h4
              simp at this
          · cases c with
            | nil => simpa using h3.symm
            | cons y c =>
              simp at h4
              exfalso
              rw [List.count_eq_zero] at h0
              apply h0
              rw [h3, ← h4.1]; simp
        subst ha
        obtain ⟨ids, hm⟩ := hi.T r hpl
        refine ⟨⟨ids, hm⟩, ?_⟩
        intro a1 ids a2 hsplit t ht j hj
        rcases hi.B a1 a2 r ids t j hsplit hj ht with h | ⟨z, k4, k5⟩
        · exact h
        · exfalso
          -- the promise is behind the function in the pending list of `t`
          have hz : [Item.promise r].Sublist z.pend ∧ (t = q → 2 ≤ z.pend.count (.promise r)) := by
            constructor
            · simp only [Q.items] at k5
              cases hzr : z.run with
              | none => rw [hzr] at k5; simp at k5; exact (List.sublist_cons_self _ _).trans k5
              | some i =>
                rw [hzr] at k5
                simp only [Option.toList_some, List.cons_append, List.nil_append] at k5
                rcases List.sublist_cons_iff.1 k5 with h | ⟨w, h, h'⟩
                · exact (List.sublist_cons_self _ _).trans h
                · simp at h; rw [h.2]; exact h'
            · intro e
              subst e
              rw [hx] at k4; cases k4
              simp only [Q.items, hr, Option.toList_none, List.nil_append, hp] at k5
              rw [hp]
              rcases List.sublist_cons_iff.1 k5 with h | ⟨w, h, -⟩
              · have := h.count_le (.promise r)
                simp at this ⊢; omega
              · simp at h
          have h2 := hz.1.count_le (.promise r)
          rw [List.count_singleton_self] at h2
          by_cases et : t = q
          · have := hz.2 et
            have := total_ge k4 r
            omega
          · have := total_ge2 k4 hx et r
            omega
      · obtain ⟨b', h3, -⟩ := split_app h (by simpa using e)
        exact hi.O a b' r h3
  · simp only [hc, if_false]
    have htp : 2 ≤ total p s.qs := by
      simp only [hg, Option.getD_some] at hc
      omega
    refine ⟨?_, ?_, ?_, ?_, ?_, hi.T |> fun h => ?_, hi.O⟩
    · intro r j h
      rcases hi.J r j h with h | ⟨z, k1, k2⟩
      · exact Or.inl h
      · exact hqq r j z [] k1 k2
    · intro a b r ids t j h k1 k2
      rcases hi.B a b r ids t j h k1 k2 with h | ⟨z, k4, k5⟩
      · exact Or.inl h
      · exact hqq t j z _ k4 k5
    · intro r c h
      have := htot r
      rcases get_set h with ⟨rfl, rfl⟩ | ⟨hne, h⟩
      · simp only [hg, Option.getD_some, if_true] at *; omega
      · have := hi.N r c h; simp [hne] at *; omega
    · intro r h
      simp at h
      obtain ⟨k1, k2, k3⟩ := hi.Z r h
      have := htot r
      exact ⟨by simp only; omega, k2, k3⟩
    · intro r h
      simp at h
      have := htot r
      have hR := hi.R r h
      by_cases e : r = p
      · have h5 := htot r
        rw [if_pos e] at h5
        subst e
        rw [hR, if_neg (by omega), if_neg (by simp only; omega)]
      · have h5 := htot r; rw [if_neg e, Nat.add_zero] at h5; simp only [e, if_false, Nat.add_zero]; rw [h5]; exact hR
    · intro r hr'; simp at hr'; exact h r hr'

theorem t_step {s s' : St} (hv : Inv s) (hi : TInv s) {a : Act} (h : step s a = some s') : TInv s' := by
  cases a with
  | get ok =>
    simp only [step] at h
    split at h
    · cases h
      rcases bestGet_cases s ok with ⟨h1, -⟩ | ⟨e, -, h1, -⟩ | ⟨-, h1, -⟩
      · rw [h1]; exact hi
      · rw [h1]; exact t_modQ hi _ _ (fun _ => ⟨rfl, rfl⟩)
      · rw [h1]; exact t_modQ (t_addQ hi) _ _ (fun _ => ⟨rfl, rfl⟩)
    · simp at h
  | put q =>
    simp only [step] at h
    split at h
    · rename_i x hx
      split at h
      · cases h
        exact t_frame (evs := []) hi (by simp) (by simp) rfl (fun p => total_set_eq hx _ (by simp) p) (hq_set hx (by exact List.Sublist.refl _)) (by simp)
      · simp at h
    · simp at h
  | queue q =>
    simp only [step] at h
    split at h
    · rename_i x hx
      split at h
      · simp at h
      · cases h
        refine t_frame (evs := [.queued q s.nj]) hi rfl (by simp) rfl (fun p => total_set_eq hx _ (by simp) p) (hq_set hx ?_) ?_
        · simp only [Q.items, ← List.append_assoc]; exact List.sublist_append_left _ _
        · intro r j hm
          simp at hm
          obtain ⟨rfl, rfl⟩ := hm
          refine ⟨_, by rw [List.getElem?_set_self (lt_of_get hx)], ?_⟩
          simp only [Q.items, ← List.append_assoc]; exact List.sublist_append_right _ _
    · simp at h
  | tail ok =>
    simp only [step] at h
    split at h
    · cases h
      simp only [tail]
      split
      · exact hi
      · rename_i hno
        have key : ∀ s1 : St, Inv s1 → TInv s1 → s1.pool ≠ [] → TInv
            { s1 with cnt := s1.cnt ++ [((s1.pool.map (·.q)).length : Int)], log := s1.log ++ [.tail s1.cnt.length (s1.pool.map (·.q))],
                      qs := s1.qs.mapIdx (fun i x => if i ∈ s1.pool.map (·.q) then { x with pend := x.pend ++ [.promise s1.cnt.length] } else x) } := by
          intro s1 hv1 hi1 hne
          refine t_tail hi1 (s1.pool.map (·.q)) ?_ ?_ (by simpa using hne)
          · rw [List.Nodup, List.pairwise_iff_getElem]
            intro i j hi0 hj hij heq
            simp only [List.length_map] at hi0 hj
            simp only [List.getElem_map] at heq
            have := hv1.nd i j s1.pool[i] s1.pool[j] (by simp) (by simp) heq
            omega
          · intro i hm
            obtain ⟨e, he, rfl⟩ := List.mem_map.1 hm
            obtain ⟨k, hk⟩ := List.getElem?_of_mem he
            exact hv1.valid k e hk
        by_cases hp : s.pool = []
        · simp only [hp, if_true]
          exact key (addQ s) (inv_addQ hv (Or.inl hp)) (t_addQ hi) (by simp [addQ])
        · simp only [hp, if_false]
          exact key s hv hi hp
    · simp at h
  | start q =>
    simp only [step] at h
    split at h
    · rename_i x hx
      split at h
      · rename_i p rest hr hp
        cases h
        exact t_promise hi hx hr hp
      · rename_i i rest hnp hr hp
        cases h
        refine t_frame (evs := []) hi (by simp) (by simp) rfl (fun p => total_set_eq hx _ ?_ p) (hq_set hx ?_) (by simp)
        · intro p
          have : (i == Item.promise p) = false := by
            simp only [beq_eq_false_iff_ne]; intro e; exact hnp p e
          simp [hp, List.count_cons, this]
        · simp [Q.items, hr, hp]
      · simp at h
    · simp at h
  | finish q =>
    simp only [step] at h
    split at h
    · rename_i x hx
      split at h
      · rename_i i hr
        split at h
        · cases h
          have htot : ∀ p, total p (s.qs.set q { x with run := none, waits := [] }) = total p s.qs := fun p => total_set_eq hx _ (by simp) p
          cases i with
          | job j =>
            refine t_frame (evs := [.finished j]) hi rfl (by simp) rfl htot ?_ (by simp)
            intro r j' z rest h1 h2
            by_cases er : r = q
            · subst er
              rw [hx] at h1; cases h1
              simp only [Q.items, hr, Option.toList_some, List.cons_append, List.nil_append] at h2
              rcases List.sublist_cons_iff.1 h2 with h | ⟨w, h, -⟩
              · exact Or.inr ⟨_, by rw [List.getElem?_set_self (lt_of_get hx)], by simpa [Q.items] using h⟩
              · simp at h; left; simp [h.1]
            · exact Or.inr ⟨z, by rw [List.getElem?_set_ne (Ne.symm er)]; exact h1, h2⟩
          | promise p =>
            refine t_frame (evs := []) hi (by simp) (by simp) rfl htot ?_ (by simp)
            intro r j' z rest h1 h2
            by_cases er : r = q
            · subst er
              rw [hx] at h1; cases h1
              simp only [Q.items, hr, Option.toList_some, List.cons_append, List.nil_append] at h2
              rcases List.sublist_cons_iff.1 h2 with h | ⟨w, h, -⟩
              · exact Or.inr ⟨_, by rw [List.getElem?_set_self (lt_of_get hx)], by simpa [Q.items] using h⟩
              · simp at h
            · exact Or.inr ⟨z, by rw [List.getElem?_set_ne (Ne.symm er)]; exact h1, h2⟩
          | timer =>
            refine t_frame (evs := []) hi (by simp) (by simp) rfl htot ?_ (by simp)
            intro r j' z rest h1 h2
            by_cases er : r = q
            · subst er
              rw [hx] at h1; cases h1
              simp only [Q.items, hr, Option.toList_some, List.cons_append, List.nil_append] at h2
              rcases List.sublist_cons_iff.1 h2 with h | ⟨w, h, -⟩
              · exact Or.inr ⟨_, by rw [List.getElem?_set_self (lt_of_get hx)], by simpa [Q.items] using h⟩
              · simp at h
            · exact Or.inr ⟨z, by rw [List.getElem?_set_ne (Ne.symm er)]; exact h1, h2⟩
        · simp at h
      · simp at h
    · simp at h
  | tick q =>
    simp only [step] at h
    split at h
    · rename_i x hx
      split at h
      · rename_i hr
        split at h
        · simp at h
        · cases h
          refine t_frame (evs := []) hi (by simp) (by simp) rfl (fun p => total_set_eq hx _ (by simp) p) (hq_set hx ?_) (by simp)
          simp [Q.items, hr]
      · simp at h
    · simp at h
  | alloc ok =>
    simp only [step] at h
    split at h
    · cases h
      rcases alloc_cases s ok with ⟨h1, -⟩ | ⟨i, e, h0, h1, -⟩ | ⟨-, h1, -⟩
      · rw [h1]; exact hi
      · rw [h1]; exact t_log hi [.alloc e.q] rfl (by simp) (by simp) rfl rfl
      · rw [h1]; exact t_log (t_addQ hi) [.alloc s.qs.length] rfl (by simp) (by simp) rfl rfl
    · simp at h
  | free q =>
    simp only [step] at h
    split at h
    · cases h
      simp only [free]
      split
      · split
        · exact t_log hi [.free q] rfl (by simp) (by simp) rfl rfl
        · exact t_log hi [.freePerm q] rfl (by simp) (by simp) rfl rfl
      · exact t_log hi [.freeInval q] rfl (by simp) (by simp) rfl rfl
    · simp at h
  | shrink c w =>
    simp only [step] at h
    split at h
    · cases h; exact t_shrink hi c w
    · simp at h
  | shrinkAll c w =>
    simp only [step] at h
    split at h
    · cases h; exact t_shrinkAll hi c w
    · simp at h
  | exit q =>
    simp only [step] at h
    split at h
    · rename_i x hx
      split at h
      · cases h
        exact t_frame (evs := []) hi (by simp) (by simp) rfl (fun p => total_set_eq hx _ (by simp) p) (hq_set hx (by exact List.Sublist.refl _)) (by simp)
      · simp at h
    · simp at h
  | destroy w =>
    simp only [step] at h
    split at h
    · cases h
      exact t_log (t_shrinkAll hi none w) [] (by simp) (by simp) (by simp) rfl rfl
    · simp at h
  | freePool =>
    simp only [step] at h
    split at h
    · split at h
      · cases h
        exact t_log hi [] (by simp) (by simp) (by simp) rfl rfl
      · simp at h
    · simp at h

theorem t_reach {s : St} (h : Reachable s) : TInv s := by
  obtain ⟨n, acts, hc, h⟩ := h
  have h0 : TInv (init n) := ⟨by simp [init], by simp [init], by simp [init], by simp [init, total], by simp [init], by simp [init], by simp [init]⟩
  have key : ∀ (acts : List Act) (u : St), Inv u → TInv u → run u acts = some s → TInv s := by
    intro acts
    induction acts with
    | nil => intro u _ hu h; simp [run] at h; subst h; exact hu
    | cons a as ih =>
      intro u hv hu h
      simp only [run] at h
      split at h
      · rename_i u1 h1; exact ih u1 (inv_step hv h1) (t_step hv hu h1) h
      · simp at h
  exact key acts _ (inv_init hc) h0 h

/-! ## The theorems -/

/-- C48: the function of a tail call is invoked at most once in any history. -/
theorem C48_at_most_once (s : St) (h : Reachable s) (p : Nat) : s.log.count (.tailRan p) ≤ 1 := by
  have hi := t_reach h
  rcases Nat.lt_or_ge p s.cnt.length with hp | hp
  · rw [hi.R p hp]; split <;> omega
  · have := (hi.Z p hp).2.1; omega

/-- C48: when the function of a tail call is invoked, the call was made before, and every function that had been added to any queue of
the pool before the call has returned. -/
theorem C48_after_all (s : St) (h : Reachable s) (a b : List Ev) (p : Nat) (hs : s.log = a ++ .tailRan p :: b) :
    (∃ ids, .tail p ids ∈ a) ∧
    ∀ a1 ids a2, a = a1 ++ .tail p ids :: a2 → ∀ q ∈ ids, ∀ j, .queued q j ∈ a1 → .finished j ∈ a :=
  (t_reach h).O a b p hs

/-- C48: once no function waits in any queue, the function of every tail call made has been invoked (exactly once), also if queues of the
pool were shrunk away or the pool was destroyed in the meantime. -/
theorem C48_invoked (s : St) (h : Reachable s) (hq : ∀ x ∈ s.qs, x.pend = []) (p : Nat) (ids : List Nat) (ht : .tail p ids ∈ s.log) :
    s.log.count (.tailRan p) = 1 := by
  have hi := t_reach h
  rcases Nat.lt_or_ge p s.cnt.length with hp | hp
  · rw [hi.R p hp, if_pos (total_zero_pend hq p)]
  · exact absurd ht ((hi.Z p hp).2.2 ids)

/-- Two queues, a tail call, the second queue finishes first. Models no code of its own. -/
def exTail : List Act :=
  [.get true, .queue 0, .put 0, .get true, .queue 1, .put 1, .tail true, .queue 0, .start 1, .finish 1, .start 1, .finish 1, .shrink none false, .exit 1,
   .start 0, .finish 0, .start 0, .finish 0, .start 0, .finish 0]

/-- For the statements and proofs about the models imported; models no code of its own. -/
def exTailSt : St := (run (init 2) exTail).getD (init 2)

example : Reachable exTailSt ∧ (∀ x ∈ exTailSt.qs, x.pend = []) ∧
    exTailSt.log = [.queued 0 0, .queued 1 1, .tail 0 [0, 1], .queued 0 2, .finished 1, .shrunk 1, .finished 0, .tailRan 0, .finished 2] :=
  ⟨⟨2, exTail, by decide, by decide +kernel⟩, by decide +kernel, by decide +kernel⟩

end Verif.Pool
