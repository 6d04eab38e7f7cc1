import Verif.MainEnd
/-! # C225: waiting for the main queue to end comes to an end -/
namespace Verif.MainEnd

/-! ## Where it does not -/

/-- Queue `i`, which the main queue waits for or will wait for, itself waits for the main queue. -/
def Circle (s : St) (i : Nat) : Prop := s.ph ≠ .done ∧ ∃ q, s.qs[i]? = some q ∧ q.pool = true ∧ q.run = .waiting ∧ q.gone = false

theorem circle_updQ {s s' : St} {i j : Nat} {p : Q → Bool} {g : Q → Q} (h : Circle s i) (hs : updQ s j p g = some s')
    (hg : ∀ q, p q = true → q.pool = true → q.run = .waiting → q.gone = false → j = i → (g q).pool = true ∧ (g q).run = .waiting ∧ (g q).gone = false) : Circle s' i ∧ s'.ph = s.ph := by
  obtain ⟨h1, q, h2, h3, h4, h5⟩ := h
  simp only [updQ] at hs
  split at hs
  · rename_i q' hq'
    split at hs
    · rename_i hp
      cases hs
      refine ⟨⟨h1, ?_⟩, rfl⟩
      by_cases e : j = i
      · subst e
        rw [h2] at hq'; cases hq'
        obtain ⟨k1, k2, k3⟩ := hg q hp h3 h4 h5 rfl
        exact ⟨g q, by rw [List.getElem?_set_self (List.getElem?_eq_some_iff.mp h2).1], k1, k2, k3⟩
      · exact ⟨q, by dsimp only; rw [List.getElem?_set_ne e]; exact h2, h3, h4, h5⟩
    · cases hs
  · cases hs

theorem circle_step (s s' : St) (i : Nat) (e : Ev) (h : Circle s i) (he : e ≠ .shrinkOne i) (hs : step s e = some s') : Circle s' i ∧ (s.ph = .shrinking → s'.ph = .shrinking) := by
  have h0 := h
  obtain ⟨h1, q, h2, h3, h4, h5⟩ := h0
  have keep : ∀ (s'' : St), s''.ph ≠ .done → s''.qs = s.qs → Circle s'' i := fun s'' k1 k2 => ⟨k1, q, by rw [k2]; exact h2, h3, h4, h5⟩
  have other : ∀ (j : Nat) (x : Q), j ≠ i → (s.qs.set j x)[i]? = some q := fun j x hj => by rw [List.getElem?_set_ne hj]; exact h2
  cases e with
  | post j f =>
    cases j with
    | none => simp only [step] at hs; split at hs <;> cases hs; exact ⟨keep _ h1 rfl, fun x => x⟩
    | some j =>
      obtain ⟨k1, k2⟩ := circle_updQ h hs (fun q _ a b c _ => ⟨a, b, c⟩)
      exact ⟨k1, fun x => by rw [k2]; exact x⟩
  | exit => simp only [step] at hs; split at hs <;> cases hs; exact ⟨keep _ h1 rfl, fun x => x⟩
  | new b =>
    simp only [step] at hs; cases hs
    exact ⟨⟨h1, q, by dsimp only; rw [List.getElem?_append_left (List.getElem?_eq_some_iff.mp h2).1]; exact h2, h3, h4, h5⟩, fun x => x⟩
  | destroy j =>
    obtain ⟨k1, k2⟩ := circle_updQ h hs (fun q _ a b c _ => ⟨a, b, c⟩)
    exact ⟨k1, fun x => by rw [k2]; exact x⟩
  | shrinkOne j =>
    simp only [step] at hs
    split at hs
    · obtain ⟨k1, k2⟩ := circle_updQ h hs (fun q _ _ _ _ hj => absurd (by rw [hj]) he)
      exact ⟨k1, fun x => by rw [k2]; exact x⟩
    · cases hs
  | take j =>
    cases j with
    | none =>
      simp only [step] at hs
      split at hs
      · split at hs <;> cases hs
        exact ⟨keep _ h1 rfl, fun x => x⟩
      · cases hs
    | some j =>
      obtain ⟨k1, k2⟩ := circle_updQ h hs (fun q hp a b c _ => by rw [b] at hp; simp at hp)
      exact ⟨k1, fun x => by rw [k2]; exact x⟩
  | go j =>
    cases j with
    | none =>
      simp only [step] at hs
      split at hs <;> cases hs <;> exact ⟨keep _ h1 rfl, fun x => x⟩
    | some j =>
      by_cases e : j = i
      · subst e
        simp only [step, h2, h4, h1, if_false] at hs
        cases hs
      · simp only [step] at hs
        split at hs
        · split at hs
          · cases hs; exact ⟨⟨h1, q, other _ _ e, h3, h4, h5⟩, fun x => x⟩
          · split at hs <;> cases hs <;> exact ⟨⟨h1, q, other _ _ e, h3, h4, h5⟩, fun x => x⟩
          · simp only [h1, if_false] at hs; cases hs
          · cases hs
        · cases hs
  | qEnd j =>
    obtain ⟨k1, k2⟩ := circle_updQ h hs (fun q hp a b c _ => by rw [b] at hp; simp at hp)
    exact ⟨k1, fun x => by rw [k2]; exact x⟩
  | leave =>
    simp only [step] at hs
    split at hs <;> cases hs
    rename_i hp
    exact ⟨keep _ (by simp) rfl, fun x => by rw [hp.1] at x; cases x⟩
  | shrink =>
    simp only [step] at hs
    split at hs <;> cases hs
    refine ⟨⟨by simp, { q with term := true }, ?_, h3, h4, h5⟩, fun x => rfl⟩
    simp [h2, h3]
  | finish =>
    simp only [step] at hs
    split at hs
    · rename_i hp
      have := hp.2 q (List.mem_of_getElem? h2) h3
      rw [h5] at this; cases this
    · cases hs

theorem runs_circle (i : Nat) (es : List Ev) : ∀ s s', Circle s i → (∀ e ∈ es, e ≠ .shrinkOne i) → runs s es = some s' → Circle s' i := by
  induction es with
  | nil => intro s s' h _ hs; simp only [runs, Option.some.injEq] at hs; subst hs; exact h
  | cons e es ih =>
    intro s s' h he hs
    simp only [runs] at hs
    cases h1 : step s e with
    | none => rw [h1] at hs; cases hs
    | some s1 =>
      rw [h1] at hs
      exact ih s1 s' (circle_step s s1 i e h (he e (by simp)) h1).1 (fun e' h' => he e' (by simp [h'])) hs

theorem runs_circle_shrinking (i : Nat) (es : List Ev) : ∀ s s', Circle s i → s.ph = .shrinking → runs s es = some s' → Circle s' i ∧ s'.ph = .shrinking := by
  induction es with
  | nil => intro s s' h hp hs; simp only [runs, Option.some.injEq] at hs; subst hs; exact ⟨h, hp⟩
  | cons e es ih =>
    intro s s' h hp hs
    simp only [runs] at hs
    cases h1 : step s e with
    | none => rw [h1] at hs; cases hs
    | some s1 =>
      rw [h1] at hs
      have he : e ≠ .shrinkOne i := by
        rintro rfl
        simp [step, hp] at h1
      obtain ⟨k1, k2⟩ := circle_step s s1 i e h he h1
      exact ih s1 s' k1 (k2 hp) hs

/-- **C225** is violated: a function on a queue of a default pool that calls `aosl_main_exit_wait` (or exit(), which does) while there is a main queue never returns, and the main queue
never ends, whatever happens — unless that queue is taken out of its pool before. -/
theorem C225_violated (s : St) (i : Nat) (q : Q) (hq : s.qs[i]? = some q) (hp : q.pool = true) (hg : q.gone = false) (hr : q.run = .fn .exitWait) (hu : s.ph = .up) :
    ∃ s1, step s (.go (some i)) = some s1 ∧ ∀ es s', (∀ e ∈ es, e ≠ .shrinkOne i) → runs s1 es = some s' → s'.ph ≠ .done ∧ ∃ q', s'.qs[i]? = some q' ∧ q'.run = .waiting := by
  refine ⟨{ s with term := true, qs := s.qs.set i { q with run := .waiting } }, by simp [step, hq, hr, hu], fun es s' he hs => ?_⟩
  obtain ⟨h1, q', h2, _, h4, _⟩ := runs_circle i es _ s' ⟨by simp [hu], { q with run := .waiting }, by
    dsimp only; rw [List.getElem?_set_self (List.getElem?_eq_some_iff.mp hq).1], hp, rfl, hg⟩ he hs
  exact ⟨h1, q', h2, h4⟩

/-- Once the main queue waits for the queues of the pools, nothing at all helps. -/
theorem C225_stuck (s : St) (i : Nat) (hc : Circle s i) (hp : s.ph = .shrinking) (es : List Ev) (s' : St) (hs : runs s es = some s') : s'.ph ≠ .done := by
  obtain ⟨_, h⟩ := runs_circle_shrinking i es s s' hc hp hs
  rw [h]; simp

/-- Such states are reached: from the start, in six steps. -/
theorem C225_reached : ∃ s, runs init0 [.new true, .post (some 0) .exitWait, .take (some 0), .go (some 0), .leave, .shrink] = some s ∧ Circle s 0 ∧ s.ph = .shrinking := by
  refine ⟨_, rfl, ⟨by decide, _, rfl, rfl, rfl, rfl⟩, rfl⟩

/-! ## Where it does -/

def wFn : Fn → Nat
  | .ret => 1
  | .exitWait => 2

def wRun : Run → Nat
  | .idle => 0
  | .fn f => wFn f
  | .waiting => 1

def wPend (l : List Fn) : Nat := (l.map fun f => wFn f + 1).sum

def wQ (q : Q) : Nat := wRun q.run + wPend q.pend + if q.gone then 0 else 1

def wPh : Ph → Nat
  | .up => 3
  | .ending => 2
  | .shrinking => 1
  | .done => 0

/-- the work that is left -/
def left (s : St) : Nat := wPh s.ph + wRun s.run + wPend s.pend + (s.qs.map wQ).sum

theorem sum_set (f : Q → Nat) (l : List Q) : ∀ (i : Nat) (q q' : Q), l[i]? = some q → ((l.set i q').map f).sum + f q = (l.map f).sum + f q' := by
  induction l with
  | nil => intro i q q' h; simp at h
  | cons x l ih =>
    intro i q q' h
    cases i with
    | zero => simp only [List.getElem?_cons_zero, Option.some.injEq] at h; subst h; simp only [List.set_cons_zero, List.map_cons, List.sum_cons]; omega
    | succ i =>
      simp only [List.getElem?_cons_succ] at h
      have := ih i q q' h
      simp only [List.set_cons_succ, List.map_cons, List.sum_cons]; omega

theorem updQ_left {s s' : St} {j : Nat} {p : Q → Bool} {g : Q → Q} (hs : updQ s j p g = some s') (hg : ∀ q, p q = true → wQ (g q) < wQ q) : left s' < left s := by
  simp only [updQ] at hs
  split at hs
  · rename_i q hq
    split at hs
    · rename_i hp
      cases hs
      have h1 := sum_set wQ s.qs j q (g q) hq
      have h2 := hg q hp
      simp only [left]; omega
    · cases hs
  · cases hs

theorem step_left (s s' : St) (e : Ev) (hi : internal e = true) (hs : step s e = some s') : left s' < left s := by
  cases e with
  | post => cases hi
  | exit => cases hi
  | new => cases hi
  | destroy => cases hi
  | shrinkOne => cases hi
  | take j =>
    cases j with
    | none =>
      simp only [step] at hs
      split at hs
      · rename_i hp
        split at hs <;> cases hs
        rename_i f fs hpd
        simp only [left, hp.2, hpd, wRun, wPend, List.map_cons, List.sum_cons]; omega
      · cases hs
    | some j =>
      refine updQ_left hs (fun q hp => ?_)
      obtain ⟨pl, r, pd, t, g⟩ := q
      cases pd with
      | nil => simp at hp
      | cons f fs =>
        have hr : r = .idle := by simp at hp; exact hp.2
        subst hr
        simp only [wQ, wRun, wPend, List.headD_cons, List.tail_cons, List.map_cons, List.sum_cons]; omega
  | go j =>
    cases j with
    | none =>
      simp only [step] at hs
      split at hs <;> cases hs <;> rename_i hr <;> simp only [left, hr, wRun, wFn] <;> omega
    | some j =>
      simp only [step] at hs
      split at hs
      · rename_i q hq
        have hset := fun q' => sum_set wQ s.qs j q q' hq
        split at hs
        · rename_i hr; cases hs
          have := hset { q with run := .idle }
          simp only [left, wQ, hr, wRun, wFn] at *; omega
        · rename_i hr
          split at hs <;> cases hs
          · have := hset { q with run := .waiting }
            simp only [left, wQ, hr, wRun, wFn] at *; omega
          · have := hset { q with run := .idle }
            simp only [left, wQ, hr, wRun, wFn] at *; omega
        · rename_i hr
          split at hs <;> cases hs
          have := hset { q with run := .idle }
          simp only [left, wQ, hr, wRun] at *; omega
        · cases hs
      · cases hs
  | qEnd j =>
    refine updQ_left hs (fun q hp => ?_)
    have hg : q.gone = false := by
      cases h : q.gone
      · rfl
      · simp [h] at hp
    simp [wQ, hg]
  | leave =>
    simp only [step] at hs
    split at hs <;> cases hs
    rename_i hp
    simp only [left, hp.1, wPh]; omega
  | shrink =>
    simp only [step] at hs
    split at hs <;> cases hs
    rename_i hp
    have : (s.qs.map fun q => if q.pool then { q with term := true } else q).map wQ = s.qs.map wQ := by
      rw [List.map_map]
      apply List.map_congr_left
      intro q _
      simp only [Function.comp]
      split <;> rfl
    simp only [left, this, hp.1, wPh]; omega
  | finish =>
    simp only [step] at hs
    split at hs <;> cases hs
    rename_i hp
    simp only [left, hp.1, wPh]; omega

/-- What holds in every history. -/
structure Ok (s : St) : Prop where
  run : s.run ≠ .waiting
  term : s.ph = .shrinking ∨ s.ph = .done → ∀ q ∈ s.qs, q.pool = true → q.term = true

theorem mem_set {l : List Q} {i : Nat} {q x : Q} (h : x ∈ l.set i q) : x ∈ l ∨ x = q := by
  rcases List.mem_or_eq_of_mem_set h with h | h
  · exact .inl h
  · exact .inr h

theorem updQ_ok {s s' : St} {j : Nat} {p : Q → Bool} {g : Q → Q} (h : Ok s) (hs : updQ s j p g = some s')
    (hg : ∀ q, p q = true → (g q).pool = true → q.pool = true ∧ (q.term = true → (g q).term = true)) : Ok s' := by
  simp only [updQ] at hs
  split at hs
  · rename_i q hq
    split at hs
    · rename_i hp
      cases hs
      refine ⟨h.run, fun hph x hx hxp => ?_⟩
      rcases mem_set hx with hx | rfl
      · exact h.term hph x hx hxp
      · obtain ⟨k1, k2⟩ := hg q hp hxp
        exact k2 (h.term hph q (List.mem_of_getElem? hq) k1)
    · cases hs
  · cases hs

theorem ok_step (s s' : St) (e : Ev) (h : Ok s) (hs : step s e = some s') : Ok s' := by
  cases e with
  | post j f =>
    cases j with
    | none => simp only [step] at hs; split at hs <;> cases hs; exact ⟨h.run, h.term⟩
    | some j => exact updQ_ok h hs (fun q _ a => ⟨a, fun b => b⟩)
  | exit => simp only [step] at hs; split at hs <;> cases hs; exact ⟨h.run, h.term⟩
  | new b =>
    simp only [step] at hs; cases hs
    refine ⟨h.run, fun hph q hq hp => ?_⟩
    simp only [List.mem_append, List.mem_singleton] at hq
    rcases hq with hq | rfl
    · exact h.term hph q hq hp
    · dsimp only at hph hp; rcases hph with hph | hph <;> simp [hph] at hp
  | destroy j => exact updQ_ok h hs (fun q _ a => ⟨a, fun _ => rfl⟩)
  | shrinkOne j =>
    simp only [step] at hs
    split at hs
    · exact updQ_ok h hs (fun q _ a => by cases a)
    · cases hs
  | take j =>
    cases j with
    | none =>
      simp only [step] at hs
      split at hs
      · split at hs <;> cases hs
        exact ⟨by simp, h.term⟩
      · cases hs
    | some j => exact updQ_ok h hs (fun q _ a => ⟨a, fun b => b⟩)
  | go j =>
    cases j with
    | none => simp only [step] at hs; split at hs <;> cases hs <;> exact ⟨by simp, h.term⟩
    | some j =>
      simp only [step] at hs
      split at hs
      · rename_i q hq
        have hmem := List.mem_of_getElem? hq
        have key : ∀ (s'' : St) (r : Run), s''.run = s.run → s''.ph = s.ph → s''.qs = s.qs.set j { q with run := r } → Ok s'' := by
          intro s'' r e1 e2 e3
          refine ⟨by rw [e1]; exact h.run, fun hph x hx hxp => ?_⟩
          rw [e2] at hph
          rw [e3] at hx
          rcases mem_set hx with hx | rfl
          · exact h.term hph x hx hxp
          · exact h.term hph q hmem hxp
        split at hs
        · cases hs; exact key _ _ rfl rfl rfl
        · split at hs <;> cases hs <;> exact key _ _ rfl rfl rfl
        · split at hs <;> cases hs; exact key _ _ rfl rfl rfl
        · cases hs
      · cases hs
  | qEnd j => exact updQ_ok h hs (fun q _ a => ⟨a, fun b => b⟩)
  | leave =>
    simp only [step] at hs
    split at hs <;> cases hs
    exact ⟨h.run, fun hph => by rcases hph with hph | hph <;> cases hph⟩
  | shrink =>
    simp only [step] at hs
    split at hs <;> cases hs
    refine ⟨h.run, fun _ q hq hp => ?_⟩
    simp only [List.mem_map] at hq
    obtain ⟨x, _, rfl⟩ := hq
    split at hp
    · rename_i hx; simp [hx]
    · rename_i hx; exact absurd hp hx
  | finish =>
    simp only [step] at hs
    split at hs <;> cases hs
    rename_i hp
    exact ⟨h.run, fun _ => h.term (.inl hp.1)⟩

inductive Reach : St → Prop
  | start : Reach init0
  | step {s s' : St} (e : Ev) (h : Reach s) (hs : step s e = some s') : Reach s'

theorem ok (s : St) (h : Reach s) : Ok s := by
  induction h with
  | start => exact ⟨by simp [init0], fun _ q hq => by simp [init0] at hq⟩
  | step e _ hs ih => exact ok_step _ _ e ih hs

/-- No queue of a default pool waits for the main queue or has a function that will. -/
def Free (s : St) : Prop := ∀ q ∈ s.qs, q.pool = true → q.run ≠ .waiting ∧ q.run ≠ .fn .exitWait ∧ Fn.exitWait ∉ q.pend

theorem runs_left (es : List Ev) : ∀ s s', (∀ e ∈ es, internal e = true) → runs s es = some s' → left s' + es.length ≤ left s := by
  induction es with
  | nil => intro s s' _ hs; simp only [runs, Option.some.injEq] at hs; subst hs; simp
  | cons e es ih =>
    intro s s' he hs
    simp only [runs] at hs
    cases h1 : step s e with
    | none => rw [h1] at hs; cases hs
    | some s1 =>
      rw [h1] at hs
      have h2 := step_left s s1 e (he e (by simp)) h1
      have h3 := ih s1 s' (fun e' h' => he e' (by simp [h'])) hs
      simp only [List.length_cons]; omega

/-- **C225**, what holds: the threads of the queues can take only so many steps by themselves (at most `left s`, whatever the schedule), and when they can take no more, then either the main queue was not told to end, or it
has ended and nobody on any queue waits for it — if no queue of a default pool waits for the main queue. Queues outside these pools, and threads without a queue, may wait. -/
theorem C225_ends_partial (s : St) (h : Reach s) (es : List Ev) (s' : St) (hi : ∀ e ∈ es, internal e = true) (hs : runs s es = some s') :
    es.length ≤ left s ∧ (Free s' → (∀ e, internal e = true → step s' e = none) → (s'.ph = .up ∧ s'.term = false) ∨ (s'.ph = .done ∧ ∀ q ∈ s'.qs, q.run ≠ .waiting)) := by
  refine ⟨by have := runs_left es s s' hi hs; omega, fun hf hn => ?_⟩
  have hr : Reach s' := by
    clear hf hn
    induction es generalizing s with
    | nil => simp only [runs, Option.some.injEq] at hs; subst hs; exact h
    | cons e es ih =>
      simp only [runs] at hs
      cases h1 : step s e with
      | none => rw [h1] at hs; cases hs
      | some s1 => rw [h1] at hs; exact ih s1 (.step e h h1) (fun e' h' => hi e' (by simp [h'])) hs
  have hk := ok s' hr
  have hidle : s'.run = .idle := by
    have h1 := hn (.go none) rfl
    cases hr : s'.run with
    | idle => rfl
    | waiting => exact absurd hr hk.run
    | fn f => cases f <;> simp [step, hr] at h1
  cases hp : s'.ph with
  | up =>
    left
    refine ⟨rfl, ?_⟩
    have h1 := hn .leave rfl
    cases ht : s'.term
    · rfl
    · simp [step, hp, hidle, ht] at h1
  | ending =>
    exfalso
    have h1 := hn (.take none) rfl
    have h2 := hn .shrink rfl
    cases hd : s'.pend with
    | nil => simp [step, hp, hidle, hd] at h2
    | cons f fs => simp [step, hp, hidle, hd] at h1
  | shrinking =>
    exfalso
    have h1 := hn .finish rfl
    simp only [step, hp, true_and] at h1
    split at h1
    · cases h1
    · rename_i hng
      apply hng
      intro q hq hqp
      obtain ⟨i, hi'⟩ := List.getElem?_of_mem hq
      have ht := hk.term (.inl hp) q hq hqp
      obtain ⟨f1, f2, f3⟩ := hf q hq hqp
      have g1 := hn (.go (some i)) rfl
      have g2 := hn (.take (some i)) rfl
      have g3 := hn (.qEnd i) rfl
      cases hg : q.gone with
      | true => rfl
      | false =>
        exfalso
        cases hr : q.run with
        | waiting => exact f1 hr
        | fn f =>
          cases f with
          | exitWait => exact f2 hr
          | ret => simp [step, hi', hr] at g1
        | idle =>
          cases hd : q.pend with
          | nil => simp [step, updQ, hi', hg, hr, hd, ht] at g3
          | cons f fs => simp [step, updQ, hi', hg, hr, hd] at g2
  | done =>
    right
    refine ⟨rfl, fun q hq hw => ?_⟩
    obtain ⟨i, hi'⟩ := List.getElem?_of_mem hq
    have g1 := hn (.go (some i)) rfl
    simp [step, hi', hw, hp] at g1

/-- The hypotheses are met: a queue outside the pools waits, a queue of a pool has functions left; the threads run until all has ended. -/
example : ∃ s s', Reach s ∧ runs s [.leave, .shrink, .take (some 1), .go (some 1), .qEnd 1, .finish, .go (some 0)] = some s' ∧ Free s' ∧ s'.ph = .done := by
  refine ⟨_, _, .step (.go (some 0)) (.step (.take (some 0)) (.step (.post (some 1) .ret) (.step (.post (some 0) .exitWait) (.step (.new true) (.step (.new false) .start rfl) rfl) rfl) rfl) rfl) rfl, rfl, ?_, rfl⟩
  unfold Free
  decide +kernel

/-- A function that waits, on a queue of a pool (C225_violated). -/
example : ∃ s q, Reach s ∧ s.qs[0]? = some q ∧ q.pool = true ∧ q.gone = false ∧ q.run = .fn .exitWait ∧ s.ph = .up :=
  ⟨_, _, .step (.take (some 0)) (.step (.post (some 0) .exitWait) (.step (.new true) .start rfl) rfl) rfl, rfl, rfl, rfl, rfl, rfl⟩

/-! ## Nothing is lost on the way -/

/-- The functions posted to the main queue, oldest first. -/
def posted (es : List Ev) : List Fn := es.filterMap fun e => match e with
  | .post none f => some f
  | _ => none

/-- What the main queue takes up in a step. -/
def takenBy (s : St) : Ev → List Fn
  | .take none => s.pend.take 1
  | _ => []

/-- The functions the main queue takes up in a history, in order. -/
def taken (s : St) : List Ev → List Fn
  | [] => []
  | e :: es => takenBy s e ++ (match step s e with
      | some s' => taken s' es
      | none => [])

theorem pend_step (s s' : St) (e : Ev) (h : step s e = some s') :
    s.pend ++ posted [e] = takenBy s e ++ s'.pend := by
  have hu : ∀ (i : Nat) (p : Q → Bool) (g : Q → Q), updQ s i p g = some s' → s'.pend = s.pend := by
    intro i p g h
    simp only [updQ] at h
    split at h
    · split at h <;> simp at h; subst h; rfl
    · simp at h
  cases e with
  | post o f =>
    cases o with
    | none =>
      simp only [step] at h; split at h <;> simp at h; subst h; simp [posted, takenBy]
    | some i => simp [posted, takenBy, hu _ _ _ h]
  | exit => simp only [step] at h; split at h <;> simp at h; subst h; simp [posted, takenBy]
  | new b => simp only [step] at h; simp at h; subst h; simp [posted, takenBy]
  | destroy i => simp [posted, takenBy, hu _ _ _ h]
  | shrinkOne i =>
    simp only [step] at h; split at h
    · simp [posted, takenBy, hu _ _ _ h]
    · simp at h
  | take o =>
    cases o with
    | none =>
      simp only [step] at h
      split at h
      · cases hp : s.pend with
        | nil => simp [hp] at h
        | cons f fs => simp [hp] at h; subst h; simp [posted, takenBy, hp]
      · simp at h
    | some i => simp [posted, takenBy, hu _ _ _ h]
  | go o =>
    cases o with
    | none =>
      simp only [step] at h; split at h <;> simp at h <;> subst h <;> simp [posted, takenBy]
    | some i =>
      simp only [step] at h
      split at h
      · split at h
        · simp at h; subst h; simp [posted, takenBy]
        · split at h <;> simp at h <;> subst h <;> simp [posted, takenBy]
        · split at h <;> simp at h; subst h; simp [posted, takenBy]
        · simp at h
      · simp at h
  | qEnd i => simp [posted, takenBy, hu _ _ _ h]
  | leave => simp only [step] at h; split at h <;> simp at h; subst h; simp [posted, takenBy]
  | shrink => simp only [step] at h; split at h <;> simp at h; subst h; simp [posted, takenBy]
  | finish => simp only [step] at h; split at h <;> simp at h; subst h; simp [posted, takenBy]

/-- The main queue takes up what was posted to it, in order, each once; what it has not taken up waits. -/
theorem C225_in_order (es : List Ev) (s s' : St) (h : runs s es = some s') : s.pend ++ posted es = taken s es ++ s'.pend := by
  induction es generalizing s with
  | nil => simp [runs] at h; subst h; simp [posted, taken]
  | cons e es ih =>
    simp only [runs] at h
    cases hs : step s e with
    | none => simp [hs] at h
    | some s1 =>
      simp only [hs, Option.bind_some] at h
      have h1 := pend_step s s1 e hs
      have h2 := ih s1 h
      have h3 : posted (e :: es) = posted [e] ++ posted es := by simp only [posted]; rw [← List.filterMap_append]; rfl
      rw [h3, ← List.append_assoc, h1, List.append_assoc, h2]
      simp only [taken, hs, List.append_assoc]

/-- Nothing waits any more when the main queue goes: every function posted to it since the start has been taken up. -/
theorem C225_all_taken (es : List Ev) (s s' : St) (h : runs init0 es = some s) (hs : step s .shrink = some s') :
    taken init0 es = posted es := by
  have := C225_in_order es init0 s h
  simp only [step] at hs
  split at hs
  · rename_i hc
    rw [hc.2.2, List.append_nil] at this
    exact this.symm
  · simp at hs

/-- Two functions posted, taken and done, and the end that follows. -/
example : taken init0 [.post none .ret, .post none .exitWait, .take none, .go none, .exit, .take none, .go none, .leave] = [.ret, .exitWait] ∧
    ∃ s s', runs init0 [.post none .ret, .post none .exitWait, .take none, .go none, .exit, .take none, .go none, .leave] = some s ∧
      step s .shrink = some s' := by
  refine ⟨by decide, _, _, rfl, rfl⟩

end Verif.MainEnd
