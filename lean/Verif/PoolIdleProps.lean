import Verif.PoolIdle
/-! Property C162: the idle check of a pool ends idle queues. -/
namespace Verif.PoolIdle

/-! ## Specification, on the history alone -/
namespace Spec

/-- functions queued to queue `q` and not yet executed -/
def pending (q : Nat) (log : List Ev) : Nat := log.count (.queue q) - log.count (.ran q)

/-- how many seconds in a row queue `q` has been idle by now: a second is idle if no function ran in it and none was pending at its end.
    The history is given latest event first; `busy q` of it: has a function run since the last full second? -/
def busy (q : Nat) : List Ev → Bool
  | [] => false
  | .ran q' :: l => q' == q || busy q l
  | .tick q' :: l => if q' = q then false else busy q l
  | _ :: l => busy q l

def idle (q : Nat) : List Ev → Nat
  | [] => 0
  | .tick q' :: l => if q' = q then (if busy q l || decide (pending q l ≠ 0) then 0 else idle q l + 1) else idle q l
  | _ :: l => idle q l

end Spec

/-! ## The counters -/

theorem endQ_pool (s : St) (q : Nat) : (s.endQ q).pool = s.pool := by
  unfold St.endQ St.setQ; split <;> rfl
theorem endQ_log (s : St) (q : Nat) : (s.endQ q).log = s.log := by
  unfold St.endQ St.setQ; split <;> rfl

/-- the counters of a queue, without the flags -/
def Q.core (x : Q) : Nat × Nat × Nat × Nat := (x.exec, x.load, x.last, x.idle)

theorem endQ_core (s : St) (q i : Nat) : ((s.endQ q).qs[i]?).map Q.core = (s.qs[i]?).map Q.core := by
  unfold St.endQ St.setQ
  split
  · rename_i x hx
    by_cases h : q = i
    · subst h
      simp [List.getElem?_set, hx, Q.core]
      exact (List.getElem?_eq_some_iff.1 hx).1
    · simp [List.getElem?_set, h]
  · rfl

theorem foldl_endQ (l : List Nat) (s : St) : (l.foldl St.endQ s).pool = s.pool ∧ (l.foldl St.endQ s).log = s.log ∧
    ∀ i : Nat, ((l.foldl St.endQ s).qs[i]?).map Q.core = (s.qs[i]?).map Q.core := by
  induction l generalizing s with
  | nil => simp
  | cons a l ih =>
    obtain ⟨h1, h2, h3⟩ := ih (s.endQ a)
    exact ⟨by rw [List.foldl_cons, h1, endQ_pool], by rw [List.foldl_cons, h2, endQ_log], fun i => by rw [List.foldl_cons, h3 i, endQ_core]⟩

/-- the pool after a check of a queue with `n` idle seconds -/
def poolAfter (m n : Nat) (pool : List Nat) : List Nat :=
  if n ≥ 2 * m then [] else if n ≥ m ∧ pool.length > 1 then pool.dropLast else pool

theorem check_pool (m : Nat) (s : St) (q : Nat) (x : Q) : (check m s q x).pool = poolAfter m (idleNext x) s.pool := by
  unfold check poolAfter
  simp only
  split
  · unfold shrinkAll; rw [(foldl_endQ _ _).1]
  · split
    · unfold shrink
      split
      · rename_i h1 h2 h3
        have h3 : s.pool.length > 1 := h3
        rw [if_pos ⟨h2, h3⟩]
        split
        · rw [endQ_pool]; rfl
        · rename_i he
          have : s.pool = [] := by simpa [St.setQ] using he
          rw [this] at h3; simp at h3
      · rename_i h1 h2 h3
        have h3 : ¬ s.pool.length > 1 := h3
        rw [if_neg (by simp [h3])]; rfl
    · rename_i h2
      rw [if_neg (by simp [h2])]; rfl

theorem check_core (m : Nat) (s : St) (q : Nat) (x : Q) (i : Nat) :
    ((check m s q x).qs[i]?).map Q.core = ((s.qs.set q { x with idle := idleNext x, last := x.exec })[i]?).map Q.core := by
  unfold check
  simp only
  split
  · unfold shrinkAll; rw [(foldl_endQ _ _).2.2]; rfl
  · split
    · unfold shrink
      split
      · split
        · rw [endQ_core]; rfl
        · rfl
      · rfl
    · rfl

/-- what is known about a queue with respect to a history -/
structure Good (log : List Ev) (i : Nat) (x : Nat × Nat × Nat × Nat) : Prop where
  exec : x.1 = log.count (.ran i)
  load : x.2.1 + log.count (.ran i) = log.count (.queue i)
  busy : x.2.2.1 ≤ x.1 ∧ (Spec.busy i log.reverse = true ↔ x.2.2.1 ≠ x.1)
  idle : x.2.2.2 = Spec.idle i log.reverse

structure Inv (s : St) : Prop where
  good : ∀ i c, (s.qs[i]?).map Q.core = some c → Good s.log i c
  fresh : ∀ i, s.qs.length ≤ i → (Ev.ran i) ∉ s.log ∧ (Ev.queue i) ∉ s.log ∧ (Ev.tick i) ∉ s.log

theorem idle_fresh (i : Nat) (l : List Ev) (h1 : Ev.ran i ∉ l) (h2 : Ev.tick i ∉ l) : Spec.idle i l = 0 ∧ Spec.busy i l = false := by
  induction l with
  | nil => simp [Spec.idle, Spec.busy]
  | cons e l ih =>
    simp only [List.mem_cons, not_or] at h1 h2
    obtain ⟨a, b⟩ := ih h1.2 h2.2
    cases e <;> simp_all [Spec.idle, Spec.busy]
    all_goals grind

theorem len_of_core {a b : List Q} (h : ∀ i : Nat, (a[i]?).map Q.core = (b[i]?).map Q.core) : a.length = b.length := by
  apply Nat.le_antisymm
  · apply Nat.le_of_not_lt; intro hl
    have := h b.length
    rw [List.getElem?_eq_none (Nat.le_refl _), List.getElem?_eq_getElem hl] at this
    simp at this
  · apply Nat.le_of_not_lt; intro hl
    have := h a.length
    rw [List.getElem?_eq_none (Nat.le_refl _), List.getElem?_eq_getElem hl] at this
    simp at this

theorem live_some {s : St} {q : Nat} {x : Q} (h : s.live q = some x) : s.qs[q]? = some x := by
  unfold St.live at h
  split at h
  · split at h
    · cases h
    · cases h; assumption
  · cases h

theorem log_step {m size : Nat} {s s' : St} {e : Ev} (h : step m size s e = some s') : s'.log = s.log ++ [e] := by
  unfold step at h
  cases ha : act m size s e with
  | none => rw [ha] at h; cases h
  | some t => rw [ha] at h; cases h; rfl

/-- the counters of all queues after an event -/
theorem core_step {m size : Nat} {s s' : St} {e : Ev} (h : step m size s e = some s') (i : Nat) :
    (s'.qs[i]?).map Q.core = match e with
      | .add => if i = s.qs.length then some (0, 0, 0, 0) else (s.qs[i]?).map Q.core
      | .queue q => (s.qs[i]?).map fun x => if i = q then (x.exec, x.load + 1, x.last, x.idle) else x.core
      | .ran q => (s.qs[i]?).map fun x => if i = q then (x.exec + 1, x.load - 1, x.last, x.idle) else x.core
      | .tick q => (s.qs[i]?).map fun x => if i = q then (x.exec, x.load, x.exec, idleNext x) else x.core
      | _ => (s.qs[i]?).map Q.core := by
  have hset : ∀ (q : Nat) (x y : Q), s.qs[q]? = some x → ((s.qs.set q y)[i]?).map Q.core =
      (s.qs[i]?).map fun z => if i = q then y.core else z.core := by
    intro q x y hx
    have hl := (List.getElem?_eq_some_iff.1 hx).1
    by_cases hq : q = i
    · subst hq; simp [List.getElem?_set, hx, hl]
    · simp [hq, Ne.symm hq]
  have hset2 : ∀ (q : Nat) (x y : Q) (f : Q → Nat × Nat × Nat × Nat), s.qs[q]? = some x → y.core = f x →
      ((s.qs.set q y)[i]?).map Q.core = (s.qs[i]?).map fun z => if i = q then f z else z.core := by
    intro q x y f hx hf
    rw [hset q x y hx]
    by_cases hq : i = q
    · subst hq; simp [hx, hf]
    · simp [hq]
  unfold step at h
  cases ha : act m size s e with
  | none => rw [ha] at h; cases h
  | some t =>
    rw [ha] at h
    cases h
    show (t.qs[i]?).map Q.core = _
    cases e with
    | add =>
      simp only [act] at ha
      split at ha <;> cases ha
      simp only
      by_cases hi : i = s.qs.length
      · subst hi; simp [Q.core, Q.new]
      · rw [if_neg hi]
        by_cases hl : i < s.qs.length
        · rw [List.getElem?_append_left hl]
        · rw [List.getElem?_eq_none (by simp; omega), List.getElem?_eq_none (by omega)]
    | queue q =>
      simp only [act] at ha
      split at ha
      · rename_i x hx
        split at ha <;> cases ha
        exact hset2 q x _ (fun x => (x.exec, x.load + 1, x.last, x.idle)) (live_some hx) rfl
      · cases ha
    | ran q =>
      simp only [act] at ha
      split at ha
      · rename_i x hx
        split at ha <;> cases ha
        exact hset2 q x _ (fun x => (x.exec + 1, x.load - 1, x.last, x.idle)) (live_some hx) rfl
      · cases ha
    | event q =>
      simp only [act] at ha
      split at ha <;> cases ha
      rfl
    | tick q =>
      simp only [act] at ha
      split at ha
      · rename_i x hx
        cases ha
        rw [check_core]
        exact hset2 q x _ (fun x => (x.exec, x.load, x.exec, idleNext x)) (live_some hx) rfl
      · cases ha
    | exit q =>
      simp only [act] at ha
      split at ha
      · rename_i x hx
        split at ha <;> cases ha
        simp only
        rw [show (s.setQ q { x with gone := true }).qs = s.qs.set q { x with gone := true } from rfl,
          hset2 q x { x with gone := true } Q.core (live_some hx) rfl]
        congr 1; funext z; simp
      · cases ha

/-- when an event can happen to a queue -/
theorem can_step {m size : Nat} {s s' : St} {e : Ev} (h : step m size s e = some s') :
    (∀ q, e = .queue q ∨ e = .tick q → q < s.qs.length) ∧ (∀ q, e = .ran q → ∃ x, s.qs[q]? = some x ∧ x.load ≠ 0) := by
  unfold step at h
  cases ha : act m size s e with
  | none => rw [ha] at h; cases h
  | some t =>
    clear h
    constructor
    · rintro q (rfl | rfl) <;> simp only [act] at ha <;> split at ha
      · rename_i x hx; exact (List.getElem?_eq_some_iff.1 (live_some hx)).1
      · cases ha
      · rename_i x hx; exact (List.getElem?_eq_some_iff.1 (live_some hx)).1
      · cases ha
    · rintro q rfl
      simp only [act] at ha
      split at ha
      · rename_i x hx
        split at ha
        · cases ha
        · rename_i h0; exact ⟨x, live_some hx, h0⟩
      · cases ha

theorem inv_init : Inv St.init := ⟨by simp [St.init], by simp [St.init]⟩

theorem len_step {m size : Nat} {s s' : St} {e : Ev} (h : step m size s e = some s') : s.qs.length ≤ s'.qs.length := by
  apply Nat.le_of_not_lt
  intro hl
  have := core_step h s'.qs.length
  rw [List.getElem?_eq_none (Nat.le_refl _), List.getElem?_eq_getElem hl] at this
  have hne : s'.qs.length ≠ s.qs.length := by omega
  cases e <;> simp [hne] at this

theorem inv_step {m size : Nat} {s s' : St} {e : Ev} (hi : Inv s) (h : step m size s e = some s') : Inv s' := by
  have hlog := log_step h
  have hcore := core_step h
  obtain ⟨hc1, hc2⟩ := can_step h
  have hlen := len_step h
  constructor
  · intro i c hc
    rw [hcore i] at hc
    rw [hlog]
    have keep : ∀ c, (s.qs[i]?).map Q.core = some c → e ≠ .queue i → e ≠ .ran i → e ≠ .tick i → Good (s.log ++ [e]) i c := by
      intro c hc h1 h2 h3
      obtain ⟨a1, a2, a3, a4⟩ := hi.good i c hc
      refine ⟨by simp [List.count_append, h2, a1], by simp [List.count_append, h1, h2, a2], ?_, ?_⟩
      · rw [List.reverse_append]
        cases e <;> simp_all [Spec.busy]
      · rw [List.reverse_append]
        cases e <;> simp_all [Spec.idle]
    cases e with
    | add =>
      simp only at hc
      split at hc
      · rename_i hl
        cases hc
        obtain ⟨f1, f2, f3⟩ := hi.fresh i (by omega)
        obtain ⟨g1, g2⟩ := idle_fresh i s.log.reverse (by simpa using f1) (by simpa using f3)
        refine ⟨by simp [List.count_append, List.count_eq_zero_of_not_mem f1], by
          simp [List.count_append, List.count_eq_zero_of_not_mem f1, List.count_eq_zero_of_not_mem f2], ?_, ?_⟩
        · simp [Spec.busy, g2]
        · simp [Spec.idle, g1]
      · exact keep c hc (by simp) (by simp) (by simp)
    | event q => exact keep c hc (by simp) (by simp) (by simp)
    | exit q => exact keep c hc (by simp) (by simp) (by simp)
    | queue q =>
      by_cases hq : i = q
      · subst hq
        simp only [if_pos] at hc
        cases hx : s.qs[i]? with
        | none => rw [hx] at hc; cases hc
        | some x =>
          rw [hx] at hc; cases hc
          obtain ⟨a1, a2, a3, a4⟩ := hi.good i x.core (by rw [hx]; rfl)
          simp only [Q.core] at a1 a2 a3 a4
          refine ⟨by simp [List.count_append, a1], by simp [List.count_append]; omega, ?_, ?_⟩
          · simpa [Spec.busy] using a3
          · simpa [Spec.idle] using a4
      · simp only [if_neg hq] at hc
        exact keep c hc (by simp [Ne.symm hq]) (by simp) (by simp)
    | ran q =>
      by_cases hq : i = q
      · subst hq
        simp only [if_pos] at hc
        obtain ⟨x', hx', hl'⟩ := hc2 i rfl
        cases hx : s.qs[i]? with
        | none => rw [hx] at hc; cases hc
        | some x =>
          rw [hx] at hc; cases hc
          rw [hx] at hx'; injection hx' with hx'; subst hx'
          obtain ⟨a1, a2, a3, a4⟩ := hi.good i x.core (by rw [hx]; rfl)
          simp only [Q.core] at a1 a2 a3 a4
          refine ⟨by simp [List.count_append, a1], by simp [List.count_append]; omega, ?_, ?_⟩
          · simp [Spec.busy]; omega
          · simpa [Spec.idle] using a4
      · simp only [if_neg hq] at hc
        exact keep c hc (by simp) (by simp [Ne.symm hq]) (by simp)
    | tick q =>
      by_cases hq : i = q
      · subst hq
        simp only [if_pos] at hc
        cases hx : s.qs[i]? with
        | none => rw [hx] at hc; cases hc
        | some x =>
          rw [hx] at hc; cases hc
          obtain ⟨a1, a2, a3, a4⟩ := hi.good i x.core (by rw [hx]; rfl)
          simp only [Q.core] at a1 a2 a3 a4
          refine ⟨by simp [List.count_append, a1], by simp [List.count_append]; omega, ?_, ?_⟩
          · simp [Spec.busy]
          · simp only [List.reverse_append, List.reverse_cons, List.reverse_nil, List.nil_append, List.singleton_append, Spec.idle, if_pos]
            have hp : Spec.pending i s.log.reverse = x.load := by
              simp only [Spec.pending, List.count_reverse]; omega
            rw [hp, idleNext, ← a4]
            by_cases hb : x.exec = x.last
            · have : Spec.busy i s.log.reverse = false := by
                cases hb' : Spec.busy i s.log.reverse with
                | false => rfl
                | true => exact absurd hb.symm (a3.2.1 hb')
              by_cases hl : x.load = 0 <;> simp [this, hb, hl]
            · have : Spec.busy i s.log.reverse = true := a3.2.2 (fun h => hb h.symm)
              simp [this, hb]
      · simp only [if_neg hq] at hc
        exact keep c hc (by simp) (by simp) (by simp [Ne.symm hq])
  · intro i hl
    obtain ⟨f1, f2, f3⟩ := hi.fresh i (by omega)
    rw [hlog]
    simp only [List.mem_append, List.mem_singleton, not_or]
    refine ⟨⟨f1, ?_⟩, ⟨f2, ?_⟩, ⟨f3, ?_⟩⟩
    · intro he
      obtain ⟨x, hx, _⟩ := hc2 i he.symm
      have := (List.getElem?_eq_some_iff.1 hx).1
      omega
    · intro he; have := hc1 i (.inl he.symm); omega
    · intro he; have := hc1 i (.inr he.symm); omega

theorem inv_run {m size : Nat} {es : List Ev} {s s' : St} (hi : Inv s) (h : run m size s es = some s') : Inv s' := by
  induction es generalizing s with
  | nil => cases h; exact hi
  | cons e es ih =>
    simp only [run] at h
    cases hs : step m size s e with
    | none => rw [hs] at h; cases h
    | some t => rw [hs] at h; exact ih (inv_step hi hs) h

/-! ## Which queues run -/

theorem endQ_get (s : St) (q i : Nat) : (s.endQ q).qs[i]? = (s.qs[i]?).map fun x => if i = q then { x with term := true } else x := by
  unfold St.endQ St.setQ
  split
  · rename_i x hx
    have hl := (List.getElem?_eq_some_iff.1 hx).1
    by_cases h : q = i
    · subst h
      have he : s.qs[q] = x := (List.getElem?_eq_some_iff.1 hx).2
      simp [hl, he]
    · simp [h, Ne.symm h]
  · rename_i hx
    by_cases h : i = q
    · subst h; simp [hx]
    · simp [h]

theorem foldl_get (l : List Nat) (s : St) (i : Nat) : (l.foldl St.endQ s).qs[i]? = (s.qs[i]?).map fun x => if i ∈ l then { x with term := true } else x := by
  induction l generalizing s with
  | nil => simp
  | cons a l ih =>
    rw [List.foldl_cons, ih, endQ_get]
    cases s.qs[i]? with
    | none => rfl
    | some x =>
      simp only [Option.map_some, Option.some.injEq, List.mem_cons]
      by_cases h1 : i = a <;> by_cases h2 : i ∈ l <;> simp [h1, h2]

/-- a queue has been told to end exactly if it is no longer in the pool -/
structure Inv2 (s : St) : Prop where
  term : ∀ (i : Nat) (x : Q), s.qs[i]? = some x → (x.term = true ↔ i ∉ s.pool)
  nodup : s.pool.Nodup
  bound : ∀ i ∈ s.pool, i < s.qs.length
  gone : ∀ (i : Nat) (x : Q), s.qs[i]? = some x → x.gone = true → x.term = true

theorem inv2_init : Inv2 St.init := ⟨by simp [St.init], by simp [St.init], by simp [St.init], by simp [St.init]⟩

theorem inv2_set {s : St} (h : Inv2 s) (q : Nat) (x y : Q) (hx : s.qs[q]? = some x) (ht : y.term = x.term) (hg : y.gone = true → y.term = true) :
    Inv2 (s.setQ q y) := by
  have hl := (List.getElem?_eq_some_iff.1 hx).1
  constructor
  · intro i z hz
    by_cases hq : q = i
    · subst hq
      simp [St.setQ, List.getElem?_set, hl] at hz
      subst hz
      rw [ht]; exact h.term q x hx
    · simp [St.setQ, hq] at hz
      exact h.term i z hz
  · exact h.nodup
  · intro i hi; simp [St.setQ]; exact h.bound i hi
  · intro i z hz
    by_cases hq : q = i
    · subst hq
      simp [St.setQ, List.getElem?_set, hl] at hz
      subst hz; exact hg
    · simp [St.setQ, hq] at hz
      exact h.gone i z hz

theorem inv2_log {s : St} (h : Inv2 s) (l : List Ev) : Inv2 { s with log := l } := ⟨h.term, h.nodup, h.bound, h.gone⟩

theorem inv2_shrinkAll {s : St} (h : Inv2 s) : Inv2 (shrinkAll s) := by
  have hg := foldl_get s.pool { s with pool := [] }
  have hp : (shrinkAll s).pool = [] := (foldl_endQ _ _).1
  have hq : ∀ i : Nat, (shrinkAll s).qs[i]? = (s.qs[i]?).map fun x => if i ∈ s.pool then { x with term := true } else x := hg
  constructor
  · intro i x hx
    rw [hq] at hx
    cases hy : s.qs[i]? with
    | none => rw [hy] at hx; cases hx
    | some y =>
      rw [hy] at hx
      simp only [Option.map_some, Option.some.injEq] at hx
      rw [hp]
      by_cases hi : i ∈ s.pool
      · rw [if_pos hi] at hx; subst hx; simp
      · rw [if_neg hi] at hx; subst hx; simp [(h.term i y hy).2 hi]
  · rw [hp]; simp
  · rw [hp]; simp
  · intro i x hx
    rw [hq] at hx
    cases hy : s.qs[i]? with
    | none => rw [hy] at hx; cases hx
    | some y =>
      rw [hy] at hx
      simp only [Option.map_some, Option.some.injEq] at hx
      by_cases hi : i ∈ s.pool
      · rw [if_pos hi] at hx; subst hx; simp
      · rw [if_neg hi] at hx; subst hx; exact h.gone i y hy

theorem inv2_shrink {s : St} (h : Inv2 s) : Inv2 (shrink s) := by
  unfold shrink
  split
  · split
    · rename_i e he
      obtain ⟨l, hl⟩ := List.getLast?_eq_some_iff.1 he
      have hnd := h.nodup
      rw [hl] at hnd
      have hne : e ∉ l := by
        intro hm
        have := (List.nodup_append.1 hnd).2.2 e hm e (by simp)
        exact this rfl
      have hdl : s.pool.dropLast = l := by rw [hl]; simp
      constructor
      · intro i x hx
        rw [endQ_pool]
        rw [endQ_get] at hx
        simp only [hdl] at hx ⊢
        cases hy : s.qs[i]? with
        | none => rw [hy] at hx; cases hx
        | some y =>
          rw [hy] at hx
          simp only [Option.map_some, Option.some.injEq] at hx
          have ht := h.term i y hy
          rw [hl] at ht
          by_cases hi : i = e
          · rw [if_pos hi] at hx; subst hx; simp [hi, hne]
          · rw [if_neg hi] at hx; subst hx; simpa [hi] using ht
      · rw [endQ_pool]; simp only [hdl]; exact (List.nodup_append.1 hnd).1
      · intro i hi
        rw [endQ_pool] at hi
        simp only [hdl] at hi
        have := h.bound i (by rw [hl]; simp [hi])
        have hlen : (({ s with pool := s.pool.dropLast } : St).endQ e).qs.length = s.qs.length :=
          len_of_core (endQ_core _ _)
        omega
      · intro i x hx
        rw [endQ_get] at hx
        simp only at hx
        cases hy : s.qs[i]? with
        | none => rw [hy] at hx; cases hx
        | some y =>
          rw [hy] at hx
          simp only [Option.map_some, Option.some.injEq] at hx
          by_cases hi : i = e
          · rw [if_pos hi] at hx; subst hx; simp
          · rw [if_neg hi] at hx; subst hx; exact h.gone i y hy
    · exact h
  · exact h

theorem inv2_step {m size : Nat} {s s' : St} {e : Ev} (hi : Inv2 s) (h : step m size s e = some s') : Inv2 s' := by
  unfold step at h
  cases ha : act m size s e with
  | none => rw [ha] at h; cases h
  | some t =>
    rw [ha] at h
    cases h
    apply inv2_log
    cases e with
    | add =>
      simp only [act] at ha
      split at ha <;> cases ha
      constructor
      · intro i x hx
        simp only at hx ⊢
        by_cases hl : i < s.qs.length
        · rw [List.getElem?_append_left hl] at hx
          rw [hi.term i x hx]
          simp; omega
        · have : i = s.qs.length := by
            have := (List.getElem?_eq_some_iff.1 hx).1
            simp at this; omega
          subst this
          simp at hx; subst hx; simp [Q.new]
      · simp only
        rw [List.nodup_append]
        refine ⟨hi.nodup, by simp, ?_⟩
        intro a ha b hb hab
        simp at hb; subst hb; subst hab
        have := hi.bound _ ha; omega
      · intro i hm
        simp at hm ⊢
        rcases hm with hm | hm
        · have := hi.bound i hm; omega
        · omega
      · intro i x hx
        simp only at hx
        by_cases hl : i < s.qs.length
        · rw [List.getElem?_append_left hl] at hx; exact hi.gone i x hx
        · have : i = s.qs.length := by
            have := (List.getElem?_eq_some_iff.1 hx).1
            simp at this; omega
          subst this
          simp at hx; subst hx; simp [Q.new]
    | queue q =>
      simp only [act] at ha
      split at ha
      · rename_i x hx
        split at ha <;> cases ha
        exact inv2_set hi q x _ (live_some hx) rfl (hi.gone q x (live_some hx))
      · cases ha
    | ran q =>
      simp only [act] at ha
      split at ha
      · rename_i x hx
        split at ha <;> cases ha
        exact inv2_set hi q x _ (live_some hx) rfl (hi.gone q x (live_some hx))
      · cases ha
    | event q =>
      simp only [act] at ha
      split at ha <;> cases ha
      exact hi
    | tick q =>
      simp only [act] at ha
      split at ha
      · rename_i x hx
        cases ha
        have h1 : Inv2 (s.setQ q { x with idle := idleNext x, last := x.exec }) :=
          inv2_set hi q x _ (live_some hx) rfl (hi.gone q x (live_some hx))
        unfold check
        simp only
        split
        · exact inv2_shrinkAll h1
        · split
          · exact inv2_shrink h1
          · exact h1
      · cases ha
    | exit q =>
      simp only [act] at ha
      split at ha
      · rename_i x hx
        split at ha
        · rename_i ht; cases ha
          exact inv2_set hi q x _ (live_some hx) rfl (fun _ => ht)
        · cases ha
      · cases ha

theorem inv2_run {m size : Nat} {es : List Ev} {s s' : St} (hi : Inv2 s) (h : run m size s es = some s') : Inv2 s' := by
  induction es generalizing s with
  | nil => cases h; exact hi
  | cons e es ih =>
    simp only [run] at h
    cases hs : step m size s e with
    | none => rw [hs] at h; cases h
    | some t => rw [hs] at h; exact ih (inv2_step hi hs) h

theorem log_run {m size : Nat} {es : List Ev} {s s' : St} (h : run m size s es = some s') : s'.log = s.log ++ es := by
  induction es generalizing s with
  | nil => cases h; simp
  | cons e es ih =>
    simp only [run] at h
    cases hs : step m size s e with
    | none => rw [hs] at h; cases h
    | some t => rw [hs] at h; rw [ih h, log_step hs]; simp

theorem run_append {m size : Nat} {s : St} (a b : List Ev) : run m size s (a ++ b) = (run m size s a).bind fun t => run m size t b := by
  induction a generalizing s with
  | nil => rfl
  | cons e a ih =>
    simp only [List.cons_append, run]
    cases step m size s e with
    | none => rfl
    | some t => exact ih

/-! ## C162 -/

/-- C162 (what holds). After every history: a queue of the pool has been told to end exactly if it is no longer in the pool, and nothing but a
    check takes a queue out of it. The check of a queue that has by then been idle for `n` full seconds in a row (counted on the
    history) takes nothing if `n` is less than `max_idles`; takes the newest queue of the pool, if it has two or more, if `n` is between
    `max_idles` and twice that; and takes all queues from twice `max_idles` on.
    Missing: that the queues taken are the idle ones (`C162_busy_taken`), and that a queue that handles events is not idle
    (`C162_events_ignored`). -/
theorem C162_taken_partial (m size : Nat) (es : List Ev) (e : Ev) (s s' : St) (h : run m size St.init es = some s) (hs : step m size s e = some s') :
    (∀ (i : Nat) (x : Q), s'.qs[i]? = some x → (x.term = true ↔ i ∉ s'.pool)) ∧
    ((∀ q, e ≠ .tick q) → ∀ i ∈ s.pool, i ∈ s'.pool) ∧
    (∀ q, e = .tick q →
      let n := Spec.idle q (es ++ [e]).reverse
      (n < m → s'.pool = s.pool) ∧
      (m ≤ n → n < 2 * m → s'.pool = if 2 ≤ s.pool.length then s.pool.dropLast else s.pool) ∧
      (2 * m ≤ n → s'.pool = [])) := by
  have hi : Inv s := inv_run inv_init h
  have hi' : Inv s' := inv_step hi hs
  have hlog : s'.log = es ++ [e] := by rw [log_step hs, log_run h]; simp [St.init]
  refine ⟨(inv2_step (inv2_run inv2_init h) hs).term, ?_, ?_⟩
  · intro hne i hm
    unfold step at hs
    cases ha : act m size s e with
    | none => rw [ha] at hs; cases hs
    | some t =>
      rw [ha] at hs; cases hs
      show i ∈ t.pool
      cases e <;> simp only [act] at ha
      case tick q => exact absurd rfl (hne q)
      all_goals (repeat' split at ha) <;> cases ha <;> simp [St.setQ, hm]
  · rintro q rfl
    have hpool : ∃ x, s.qs[q]? = some x ∧ s'.pool = poolAfter m (idleNext x) s.pool := by
      unfold step at hs
      cases ha : act m size s (.tick q) with
      | none => rw [ha] at hs; cases hs
      | some t =>
        rw [ha] at hs; cases hs
        simp only [act] at ha
        split at ha
        · rename_i x hx
          cases ha
          exact ⟨x, live_some hx, check_pool m s q x⟩
        · cases ha
    obtain ⟨x, hx, hp⟩ := hpool
    have hc := core_step hs q
    simp only [hx, Option.map_some, if_pos] at hc
    have hn := (hi'.good q _ hc).idle
    simp only at hn
    rw [hlog] at hn
    simp only
    rw [← hn, hp]
    unfold poolAfter
    refine ⟨fun h => ?_, fun h1 h2 => ?_, fun h => ?_⟩
    · rw [if_neg (by omega), if_neg (by omega)]
    · rw [if_neg (by omega)]
      by_cases h3 : 2 ≤ s.pool.length
      · rw [if_pos ⟨h1, by omega⟩, if_pos h3]
      · rw [if_neg (by omega), if_neg h3]
    · rw [if_pos h]

/-! ### Ticks in a row -/

theorem tick_ok {m size : Nat} {s : St} {q : Nat} {x : Q} (hx : s.live q = some x) :
    ∃ s', step m size s (.tick q) = some s' ∧ s'.pool = poolAfter m (idleNext x) s.pool ∧
      ∃ x', s'.live q = some x' ∧ x'.exec = x.exec ∧ x'.load = x.load ∧ x'.last = x.exec ∧ x'.idle = idleNext x := by
  have hs : step m size s (.tick q) = some { check m s q x with log := s.log ++ [.tick q] } := by
    simp [step, act, hx]
  refine ⟨_, hs, check_pool m s q x, ?_⟩
  have hx' := live_some hx
  have hg : x.gone = false := by
    unfold St.live at hx
    rw [hx'] at hx
    simp only at hx
    cases hb : x.gone with
    | false => rfl
    | true => rw [hb] at hx; cases hx
  have hl := (List.getElem?_eq_some_iff.1 hx').1
  have hset : (s.setQ q { x with idle := idleNext x, last := x.exec }).qs[q]? = some { x with idle := idleNext x, last := x.exec } := by
    simp [St.setQ, hl]
  have : ∃ x', (check m s q x).qs[q]? = some x' ∧ x'.gone = false ∧ x'.exec = x.exec ∧ x'.load = x.load ∧ x'.last = x.exec ∧ x'.idle = idleNext x := by
    unfold check
    simp only
    split
    · unfold shrinkAll
      rw [foldl_get]
      simp only [hset, Option.map_some]
      refine ⟨_, rfl, ?_⟩
      split <;> exact ⟨hg, rfl, rfl, rfl, rfl⟩
    · split
      · unfold shrink
        split
        · split
          · rw [endQ_get]
            simp only [hset, Option.map_some]
            refine ⟨_, rfl, ?_⟩
            split <;> exact ⟨hg, rfl, rfl, rfl, rfl⟩
          · exact ⟨_, hset, hg, rfl, rfl, rfl, rfl⟩
        · exact ⟨_, hset, hg, rfl, rfl, rfl, rfl⟩
      · exact ⟨_, hset, hg, rfl, rfl, rfl, rfl⟩
  obtain ⟨x', h1, h2, h3, h4, h5, h6⟩ := this
  refine ⟨x', ?_, h3, h4, h5, h6⟩
  unfold St.live
  simp only [h1, h2]
  rfl

theorem poolAfter_nil (m n : Nat) : poolAfter m n [] = [] := by
  unfold poolAfter; split
  · rfl
  · split <;> rfl

theorem ticks_empty {m size : Nat} (k : Nat) {s : St} {q : Nat} {x : Q} (hx : s.live q = some x) (hl : x.load = 0) (he : x.exec = x.last)
    (hk : 2 * m ≤ x.idle + k) (hp : 0 < k ∨ s.pool = []) : ∃ s', run m size s (List.replicate k (.tick q)) = some s' ∧ s'.pool = [] := by
  induction k generalizing s x with
  | zero =>
    rcases hp with hp | hp
    · omega
    · exact ⟨s, rfl, hp⟩
  | succ k ih =>
    obtain ⟨s1, h1, h2, x1, h3, h4, h5, h6, h7⟩ := tick_ok (m := m) (size := size) hx
    have hn : idleNext x = x.idle + 1 := by unfold idleNext; rw [if_pos ⟨he, hl⟩]
    obtain ⟨s', h8, h9⟩ := ih h3 (by omega) (by omega) (by omega) (by
      by_cases hk0 : 0 < k
      · exact .inl hk0
      · right; rw [h2, hn]; unfold poolAfter; rw [if_pos (by omega)])
    exact ⟨s', by rw [List.replicate_succ, run, h1]; exact h8, h9⟩

/-- C162 (the check does its work). In every state, a running queue without pending functions takes all queues, itself included, out
    of the pool with its next `2 * max_idles + 1` checks, if it executes nothing in between. -/
theorem C162_empties (m size : Nat) (s : St) (q : Nat) (x : Q) (hx : s.live q = some x)
    (hl : x.load = 0) : ∃ s', run m size s (List.replicate (2 * m + 1) (.tick q)) = some s' ∧ s'.pool = [] := by
  obtain ⟨s1, h1, h2, x1, h3, h4, h5, h6, h7⟩ := tick_ok (m := m) (size := size) hx
  have : ∃ s', run m size s1 (List.replicate (2 * m) (.tick q)) = some s' ∧ s'.pool = [] := by
    apply ticks_empty (2 * m) h3 (by omega) (by omega) (by omega)
    by_cases hm : 0 < 2 * m
    · exact .inl hm
    · right; rw [h2]; unfold poolAfter; rw [if_pos (by omega)]
  obtain ⟨s', h8, h9⟩ := this
  exact ⟨s', by rw [List.replicate_succ, run, h1]; exact h8, h9⟩

/-- two queues; the second one has a function to execute; `k` checks of the first one -/
def waiting (k : Nat) : St := ⟨[⟨0, 0, 0, k, false, false⟩, ⟨0, 1, 0, 0, false, false⟩], [0, 1], [.add, .add, .queue 1] ++ List.replicate k (.tick 0)⟩

theorem waiting_run (m k : Nat) (h : k < m) : run m 2 St.init ([.add, .add, .queue 1] ++ List.replicate k (.tick 0)) = some (waiting k) := by
  induction k with
  | zero => rfl
  | succ k ih =>
    have hr : List.replicate (k + 1) (Ev.tick 0) = List.replicate k (.tick 0) ++ [.tick 0] := by
      rw [List.replicate_succ']
    rw [hr, ← List.append_assoc, run_append, ih (by omega)]
    simp only [Option.bind_some, run, step, act]
    have hl : (waiting k).live 0 = some ⟨0, 0, 0, k, false, false⟩ := rfl
    simp only [hl, Option.map_some, Option.bind_some]
    have hc : check m (waiting k) 0 ⟨0, 0, 0, k, false, false⟩ = (waiting k).setQ 0 ⟨0, 0, 0, k + 1, false, false⟩ := by
      unfold check
      have hn : idleNext ⟨0, 0, 0, k, false, false⟩ = k + 1 := rfl
      simp only [hn]
      rw [if_neg (by omega), if_neg (by omega)]
    rw [hc]
    simp [waiting, St.setQ, List.replicate_succ']

/-- C162 is false of the code: the queue taken is the newest one, not an idle one. For every `max_idles`: of two queues the second is given a function;
    the first one, idle for `max_idles` seconds, takes the second one out of the pool and ends it, though its function has not even been executed;
    nothing can be queued to it any more. -/
theorem C162_busy_taken (m : Nat) (h : 1 ≤ m) : ∃ s', run m 2 St.init ([.add, .add, .queue 1] ++ List.replicate m (.tick 0)) = some s' ∧
    s'.pool = [0] ∧ s'.qs[1]? = some ⟨0, 1, 0, 0, true, false⟩ ∧ step m 2 s' (.queue 1) = none := by
  obtain ⟨k, rfl⟩ : ∃ k, m = k + 1 := ⟨m - 1, by omega⟩
  have hl : (waiting k).live 0 = some ⟨0, 0, 0, k, false, false⟩ := rfl
  have hc : check (k + 1) (waiting k) 0 ⟨0, 0, 0, k, false, false⟩ =
      ⟨[⟨0, 0, 0, k + 1, false, false⟩, ⟨0, 1, 0, 0, true, false⟩], [0], (waiting k).log⟩ := by
    unfold check
    have hn : idleNext ⟨0, 0, 0, k, false, false⟩ = k + 1 := rfl
    simp only [hn]
    rw [if_neg (by omega), if_pos (by omega)]
    rfl
  refine ⟨⟨[⟨0, 0, 0, k + 1, false, false⟩, ⟨0, 1, 0, 0, true, false⟩], [0], (waiting k).log ++ [.tick 0]⟩, ?_, rfl, rfl, rfl⟩
  rw [List.replicate_succ', ← List.append_assoc, run_append, waiting_run (k + 1) k (by omega)]
  simp only [Option.bind_some, run, step, act, hl, hc, Option.map_some]

/-- C162 is false of the code: a queue that handles descriptors' events or user timers in every single second counts as idle, and after
    `2 * max_idles` seconds every queue of the pool is ended with its descriptors (here a pool of one). -/
theorem C162_events_ignored (m : Nat) (h : 1 ≤ m) : ∃ s', run m 1 St.init (.add :: (List.replicate (2 * m) [Ev.event 0, Ev.tick 0]).flatten) = some s' ∧
    s'.pool = [] ∧ ∃ x, s'.qs[0]? = some x ∧ x.term = true := by
  have key : ∀ k, k < 2 * m → run m 1 St.init (.add :: (List.replicate k [Ev.event 0, Ev.tick 0]).flatten) =
    some ⟨[⟨0, 0, 0, k, false, false⟩], [0], .add :: (List.replicate k [Ev.event 0, Ev.tick 0]).flatten⟩ := by
    intro k hk
    induction k with
    | zero => rfl
    | succ k ih =>
      have hr : (Ev.add :: (List.replicate (k + 1) [Ev.event 0, Ev.tick 0]).flatten) =
          (Ev.add :: (List.replicate k [Ev.event 0, Ev.tick 0]).flatten) ++ [.event 0, .tick 0] := by
        rw [List.replicate_succ']; simp
      rw [hr, run_append, ih (by omega)]
      generalize (Ev.add :: (List.replicate k [Ev.event 0, Ev.tick 0]).flatten) = l
      simp only [Option.bind_some, run, step, act, St.live, List.getElem?_cons_zero]
      simp only [Bool.false_eq_true, if_false, Option.map_some, Option.bind_some, List.getElem?_cons_zero]
      have hc : check m ⟨[⟨0, 0, 0, k, false, false⟩], [0], l ++ [.event 0]⟩ 0 ⟨0, 0, 0, k, false, false⟩ =
          ⟨[⟨0, 0, 0, k + 1, false, false⟩], [0], l ++ [.event 0]⟩ := by
        unfold check
        have hn : idleNext ⟨0, 0, 0, k, false, false⟩ = k + 1 := rfl
        simp only [hn]
        rw [if_neg (by omega)]
        split <;> rfl
      rw [hc]
      simp
  obtain ⟨k, hk⟩ : ∃ k, 2 * m = k + 1 := ⟨2 * m - 1, by omega⟩
  have hr : (Ev.add :: (List.replicate (2 * m) [Ev.event 0, Ev.tick 0]).flatten) =
      (Ev.add :: (List.replicate k [Ev.event 0, Ev.tick 0]).flatten) ++ [.event 0, .tick 0] := by
    rw [hk, List.replicate_succ']; simp
  rw [hr, run_append, key k (by omega)]
  generalize (Ev.add :: (List.replicate k [Ev.event 0, Ev.tick 0]).flatten) = l
  simp only [Option.bind_some, run, step, act, St.live, List.getElem?_cons_zero]
  simp only [Bool.false_eq_true, if_false, Option.map_some, Option.bind_some, List.getElem?_cons_zero]
  have hc : check m ⟨[⟨0, 0, 0, k, false, false⟩], [0], l ++ [.event 0]⟩ 0 ⟨0, 0, 0, k, false, false⟩ =
      ⟨[⟨0, 0, 0, k + 1, true, false⟩], [], l ++ [.event 0]⟩ := by
    unfold check
    have hn : idleNext ⟨0, 0, 0, k, false, false⟩ = k + 1 := rfl
    simp only [hn]
    rw [if_pos (by omega)]
    rfl
  rw [hc]
  exact ⟨_, rfl, rfl, _, rfl, rfl⟩

/-- a history: a queue works for two seconds, is idle for two, and with `max_idles` = 2 its pool of two loses one queue -/
example : let es := [Ev.add, .add, .queue 0, .ran 0, .tick 0, .queue 0, .tick 0, .ran 0, .tick 0, .tick 0]
    (run 2 3 St.init es).map (·.pool) = some [0, 1] ∧ Spec.idle 0 (es ++ [Ev.tick 0]).reverse = 2 ∧
    (run 2 3 St.init (es ++ [.tick 0])).map (·.pool) = some [0] := by decide +kernel

theorem foldl_endQ_pool (l : List Nat) : ∀ s : St, (l.foldl St.endQ s).pool = s.pool := by
  induction l with
  | nil => intro s; rfl
  | cons a l ih => intro s; rw [List.foldl_cons, ih, endQ_pool]

theorem check_pool_le (m : Nat) (s : St) (q : Nat) (x : Q) : (check m s q x).pool.length ≤ s.pool.length := by
  simp only [check]
  split
  · simp only [shrinkAll, foldl_endQ_pool]; simp
  · split
    · simp only [shrink]
      split
      · split
        · rw [endQ_pool]; simp [St.setQ]
        · exact Nat.le_refl _
      · exact Nat.le_refl _
    · exact Nat.le_refl _

/-- C162 (size). Over every history the pool has no more queues than it was created for. -/
theorem C162_size (m size : Nat) : ∀ (es : List Ev) (s s' : St), s.pool.length ≤ size → run m size s es = some s' → s'.pool.length ≤ size := by
  intro es
  induction es with
  | nil => intro s s' h hr; cases hr; exact h
  | cons e es ih =>
    intro s s' h hr
    simp only [run, step] at hr
    cases ha : act m size s e with
    | none => simp [ha] at hr
    | some s1 =>
      simp only [ha, Option.map_some, Option.bind_some] at hr
      refine ih _ s' ?_ hr
      show s1.pool.length ≤ size
      cases e <;> simp only [act] at ha <;> (repeat' split at ha) <;> cases ha
      all_goals first | exact Nat.le_trans (check_pool_le ..) h | exact h | (simp; omega)

end Verif.PoolIdle
