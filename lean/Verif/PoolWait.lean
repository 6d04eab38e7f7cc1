import Verif.PoolTail

/-! # Waiting for pool queues to end (C100), destroying a pool (C101) -/

namespace Verif.Pool

/-- Queue `i` is inside a function that waits for `w`. Models no code of its own. -/
def Held (i : Nat) (w : List Nat) (qs : List Q) : Prop := ∃ x : Q, qs[i]? = some x ∧ x.run.isSome = true ∧ x.waits = w ∧ x.gone = false

theorem held_set {i q : Nat} {w : List Nat} {qs : List Q} {x y : Q} (h : Held i w qs) (hx : qs[q]? = some x)
    (hy : q = i → y.run.isSome = true ∧ y.waits = x.waits ∧ y.gone = false) : Held i w (qs.set q y) := by
  obtain ⟨z, h1, h2, h3, h4⟩ := h
  by_cases e : q = i
  · subst e
    obtain ⟨k1, k2, k3⟩ := hy rfl
    rw [hx] at h1; cases h1
    exact ⟨y, by rw [List.getElem?_set_self (lt_of_get hx)], k1, by rw [k2, h3], k3⟩
  · exact ⟨z, by rw [List.getElem?_set_ne e]; exact h1, h2, h3, h4⟩

theorem held_modQ {i q : Nat} {w : List Nat} {s : St} {f : Q → Q} (h : Held i w s.qs)
    (hf : q = i → ∀ x, (f x).run = x.run ∧ (f x).waits = x.waits ∧ (f x).gone = x.gone) : Held i w (modQ s q f).qs := by
  simp only [modQ]
  split
  · rename_i x hx
    refine held_set h hx (fun e => ?_)
    obtain ⟨z, h1, h2, h3, h4⟩ := h
    subst e; rw [hx] at h1; cases h1
    obtain ⟨k1, k2, k3⟩ := hf rfl x
    exact ⟨by rw [k1]; exact h2, k2, by rw [k3]; exact h4⟩
  · exact h

theorem held_append {i : Nat} {w : List Nat} {qs rs : List Q} (h : Held i w qs) : Held i w (qs ++ rs) := by
  obtain ⟨z, h1, h2⟩ := h
  exact ⟨z, by rw [List.getElem?_append_left (lt_of_get h1)]; exact h1, h2⟩

theorem held_mapIdx {i : Nat} {w : List Nat} {qs : List Q} (h : Held i w qs) (f : Nat → Q → Q)
    (hf : ∀ k x, (f k x).run = x.run ∧ (f k x).waits = x.waits ∧ (f k x).gone = x.gone) : Held i w (qs.mapIdx f) := by
  obtain ⟨z, h1, h2, h3, h4⟩ := h
  obtain ⟨k1, k2, k3⟩ := hf i z
  exact ⟨f i z, by simp [List.getElem?_mapIdx, h1], by rw [k1]; exact h2, by rw [k2]; exact h3, by rw [k3]; exact h4⟩

theorem held_setWaits {i : Nat} {w : List Nat} {s : St} (h : Held i w s.qs) (hw : w ≠ []) {s0 : St} (h0 : Held i w s0.qs) {c : Option Nat} (hc : canCall s0 c = true)
    (b : Bool) (l : List Nat) : Held i w (setWaits s c b l).qs := by
  cases c with
  | none => exact h
  | some c =>
    simp only [setWaits]
    split
    · refine held_modQ h (fun e => ?_)
      exfalso
      subst e
      obtain ⟨z, h1, h2, h3, h4⟩ := h0
      simp [canCall, h1, h3, hw] at hc
    · exact h

theorem held_shrinkAll {i : Nat} {w : List Nat} {s : St} (h : Held i w s.qs) (hw : w ≠ []) {c : Option Nat} (hc : canCall s c = true) (b : Bool) :
    Held i w (shrinkAll s c b).qs := by
  simp only [shrinkAll, emit]
  refine held_setWaits ?_ hw h hc b _
  refine held_mapIdx h _ (fun k x => ?_)
  split <;> exact ⟨rfl, rfl, rfl⟩

/-- A queue waiting for a queue that does not end stays where it is. -/
theorem held_step {s s' : St} {a : Act} (h : step s a = some s') {i v : Nat} (hi : Held i [v] s.qs)
    (hv : ∃ x : Q, s.qs[v]? = some x ∧ x.gone = false) : Held i [v] s'.qs := by
  have hw : [v] ≠ [] := by simp
  cases a with
  | get ok =>
    simp only [step] at h
    split at h
    · cases h
      rcases bestGet_cases s ok with ⟨h1, -⟩ | ⟨e, -, h1, -⟩ | ⟨-, h1, -⟩
      · rw [h1]; exact hi
      · rw [h1]; exact held_modQ hi (fun _ _ => ⟨rfl, rfl, rfl⟩)
      · rw [h1]; exact held_modQ (s := addQ s) (held_append hi) (fun _ _ => ⟨rfl, rfl, rfl⟩)
    · simp at h
  | put q =>
    simp only [step] at h
    split at h
    · rename_i x hx
      split at h
      · cases h
        refine held_set hi hx (fun e => ?_)
        obtain ⟨z, h1, h2, h3, h4⟩ := hi
        subst e; rw [hx] at h1; cases h1
        exact ⟨h2, rfl, h4⟩
      · simp at h
    · simp at h
  | queue q =>
    simp only [step] at h
    split at h
    · rename_i x hx
      split at h
      · simp at h
      · cases h
        refine held_set hi hx (fun e => ?_)
        obtain ⟨z, h1, h2, h3, h4⟩ := hi
        subst e; rw [hx] at h1; cases h1
        exact ⟨h2, rfl, h4⟩
    · simp at h
  | tail ok =>
    simp only [step] at h
    split at h
    · cases h
      simp only [tail]
      split
      · exact hi
      · refine held_mapIdx ?_ _ (fun k x => ?_)
        · split
          · exact held_append hi
          · exact hi
        · split <;> split <;> exact ⟨rfl, rfl, rfl⟩
    · simp at h
  | start q =>
    simp only [step] at h
    split at h
    · rename_i x hx
      have key : x.run = none → q ≠ i := by
        intro hr e
        obtain ⟨z, h1, h2, h3, h4⟩ := hi
        subst e; rw [hx] at h1; cases h1
        simp [hr] at h2
      split at h
      · rename_i hr _
        cases h
        exact held_set hi hx (fun e => absurd e (key hr))
      · rename_i hr _
        cases h
        exact held_set hi hx (fun e => absurd e (key hr))
      · simp at h
    · simp at h
  | finish q =>
    simp only [step] at h
    split at h
    · rename_i x hx
      split at h
      · split at h
        · rename_i hg
          cases h
          refine held_set hi hx (fun e => ?_)
          exfalso
          obtain ⟨z, h1, h2, h3, h4⟩ := hi
          subst e; rw [hx] at h1; cases h1
          obtain ⟨y, k1, k2⟩ := hv
          simp [allGone, h3, k1, k2] at hg
        · simp at h
      · simp at h
    · simp at h
  | tick q =>
    simp only [step] at h
    split at h
    · rename_i x hx
      split at h
      · rename_i hr
        split at h
        · simp at h
        · cases h
          refine held_set hi hx (fun e => ?_)
          obtain ⟨z, h1, h2, h3, h4⟩ := hi
          subst e; rw [hx] at h1; cases h1
          simp [hr] at h2
      · simp at h
    · simp at h
  | alloc ok =>
    simp only [step] at h
    split at h
    · cases h
      rcases alloc_cases s ok with ⟨h1, -⟩ | ⟨k, e, h0, h1, -⟩ | ⟨-, h1, -⟩
      · rw [h1]; exact hi
      · rw [h1]; exact hi
      · rw [h1]; exact held_append hi
    · simp at h
  | free q =>
    simp only [step] at h
    split at h
    · cases h
      simp only [free]
      split
      · split <;> exact hi
      · exact hi
    · simp at h
  | shrink c w =>
    simp only [step] at h
    split at h
    · rename_i hc
      simp at hc
      cases h
      simp only [shrink]
      split
      · split
        · split
          · exact held_setWaits (s := setTerm { s with pool := s.pool.dropLast } _) (held_modQ (s := { s with pool := s.pool.dropLast }) hi (fun _ _ => ⟨rfl, rfl, rfl⟩)) hw hi hc.2 w _
          · exact hi
        · exact hi
      · exact hi
    · simp at h
  | shrinkAll c w =>
    simp only [step] at h
    split at h
    · rename_i hc
      simp at hc
      cases h
      exact held_shrinkAll hi hw hc.2 w
    · simp at h
  | exit q =>
    simp only [step] at h
    split at h
    · rename_i x hx
      split at h
      · rename_i hg
        cases h
        refine held_set hi hx (fun e => ?_)
        exfalso
        obtain ⟨z, h1, h2, h3, h4⟩ := hi
        subst e; rw [hx] at h1; cases h1
        simp at hg
        simp [hg.1.1.2] at h2
      · simp at h
    · simp at h
  | destroy w =>
    simp only [step] at h
    split at h
    · cases h
      exact held_shrinkAll (c := none) hi hw rfl w
    · simp at h
  | freePool =>
    simp only [step] at h
    split at h
    · split at h
      · cases h; exact hi
      · simp at h
    · simp at h

theorem locked_run {s s' : St} (acts : List Act) (h : run s acts = some s') (hl : Held 1 [2] s.qs ∧ Held 2 [1] s.qs) : Held 1 [2] s'.qs ∧ Held 2 [1] s'.qs := by
  induction acts generalizing s with
  | nil => simp [run] at h; subst h; exact hl
  | cons a as ih =>
    simp only [run] at h
    split at h
    · rename_i s1 h1
      obtain ⟨k1, k2⟩ := hl
      refine ih h ⟨held_step h1 k1 ?_, held_step h1 k2 ?_⟩
      · obtain ⟨x, a1, -, -, a4⟩ := k2; exact ⟨x, a1, a4⟩
      · obtain ⟨x, a1, -, -, a4⟩ := k1; exact ⟨x, a1, a4⟩
    · simp at h

/-- Three queues; the idle timers of the second and third fire at the same time, as they do in every pool whose queues fall idle together, and both
shrink the pool by one, waiting for the queue to end, as `__mpqp_q_check_shrink` does. Models no code of its own. -/
def exLock : List Act :=
  [.get true, .get true, .get true, .put 0, .put 1, .put 2, .tick 1, .tick 2, .shrink (some 1) true, .shrink (some 2) true]

/-- For the statements and proofs about the models imported; models no code of its own. -/
def exLockSt : St := (run (init 3) exLock).getD (init 3)

/-- C100 fails: the built-in idle shrinking of a pool of three queues can end in a state in which two queues wait for each other for ever:
whatever happens afterwards, neither ends, and the two calls never return. -/
theorem C100_deadlock : Reachable exLockSt ∧ ∀ acts s', run exLockSt acts = some s' →
    (∃ x y : Q, s'.qs[1]? = some x ∧ s'.qs[2]? = some y ∧ x.gone = false ∧ y.gone = false ∧ x.waits = [2] ∧ y.waits = [1]) := by
  refine ⟨⟨3, exLock, by decide, by decide +kernel⟩, ?_⟩
  intro acts s' h
  have h0 : Held 1 [2] exLockSt.qs ∧ Held 2 [1] exLockSt.qs := by
    constructor
    · exact ⟨{ pend := [], run := some .timer, hold := 0, term := true, gone := false, waits := [2] }, by decide +kernel⟩
    · exact ⟨{ pend := [], run := some .timer, hold := 0, term := true, gone := false, waits := [1] }, by decide +kernel⟩
  obtain ⟨⟨x, h1, -, h2, h3⟩, ⟨y, h4, -, h5, h6⟩⟩ := locked_run acts h h0
  exact ⟨x, y, h1, h4, h3, h6, h2, h5⟩

/-! ## What does hold -/

/-- No function of a pool queue makes a waiting shrink call. Models no code of its own. -/
def noSelfWait : Act → Bool
  | .shrink (some _) true => false
  | .shrinkAll (some _) true => false
  | _ => true

/-- For the statements and proofs about the models imported; models no code of its own. -/
def NoWaits (s : St) : Prop := ∀ (q : Nat) (x : Q), s.qs[q]? = some x → x.waits = []

theorem nw_set {s : St} {q : Nat} {x y : Q} (hi : NoWaits s) (hx : s.qs[q]? = some x) (hy : y.waits = x.waits ∨ y.waits = []) :
    ∀ (r : Nat) (z : Q), (s.qs.set q y)[r]? = some z → z.waits = [] := by
  intro r z h
  rcases get_set h with ⟨rfl, rfl⟩ | ⟨_, h⟩
  · rcases hy with h | h
    · rw [h]; exact hi _ _ hx
    · exact h
  · exact hi r z h

theorem nw_modQ {s : St} {q : Nat} {f : Q → Q} (hi : NoWaits s) (hf : ∀ x, (f x).waits = x.waits) : NoWaits (modQ s q f) := by
  simp only [modQ]
  split
  · rename_i x hx
    exact nw_set hi hx (Or.inl (hf x))
  · exact hi

theorem nw_addQ {s : St} (hi : NoWaits s) : NoWaits (addQ s) := by
  intro q x h
  simp only [addQ] at h
  rcases get_append h with ⟨rfl, rfl⟩ | h
  · rfl
  · exact hi q x h

theorem nw_mapIdx {qs : List Q} (hi : ∀ (q : Nat) (x : Q), qs[q]? = some x → x.waits = []) (f : Nat → Q → Q) (hf : ∀ k x, (f k x).waits = x.waits) :
    ∀ (q : Nat) (x : Q), (qs.mapIdx f)[q]? = some x → x.waits = [] := by
  intro q x h
  rw [List.getElem?_mapIdx] at h
  cases hx : qs[q]? with
  | none => rw [hx] at h; simp at h
  | some y =>
    rw [hx] at h
    simp at h
    subst h
    rw [hf]; exact hi q y hx

theorem nw_shrinkAll {s : St} (hi : NoWaits s) {c : Option Nat} {w : Bool} (hn : noSelfWait (.shrinkAll c w) = true) : NoWaits (shrinkAll s c w) := by
  have h1 : ∀ (t : St) l, NoWaits t → NoWaits (setWaits t c w l) := by
    intro t l ht
    cases c with
    | none => exact ht
    | some c => cases w with
      | true => simp [noSelfWait] at hn
      | false => exact ht
  exact h1 _ _ (nw_mapIdx hi _ (fun k x => by split <;> rfl))

theorem nw_step {s s' : St} {a : Act} (hn : noSelfWait a = true) (hi : NoWaits s) (h : step s a = some s') : NoWaits s' := by
  cases a with
  | get ok =>
    simp only [step] at h
    split at h
    · cases h
      rcases bestGet_cases s ok with ⟨h1, -⟩ | ⟨e, -, h1, -⟩ | ⟨-, h1, -⟩
      · rw [h1]; exact hi
      · rw [h1]; exact nw_modQ hi (fun _ => rfl)
      · rw [h1]; exact nw_modQ (nw_addQ hi) (fun _ => rfl)
    · simp at h
  | put q =>
    simp only [step] at h
    split at h
    · rename_i x hx
      split at h
      · cases h; exact nw_set hi hx (Or.inl rfl)
      · simp at h
    · simp at h
  | queue q =>
    simp only [step] at h
    split at h
    · rename_i x hx
      split at h
      · simp at h
      · cases h; exact nw_set hi hx (Or.inl rfl)
    · simp at h
  | tail ok =>
    simp only [step] at h
    split at h
    · cases h
      simp only [tail]
      split
      · exact hi
      · refine nw_mapIdx ?_ _ (fun k x => by split <;> split <;> rfl)
        split
        · exact nw_addQ hi
        · exact hi
    · simp at h
  | start q =>
    simp only [step] at h
    split at h
    · rename_i x hx
      split at h
      · cases h; exact nw_set hi hx (Or.inl rfl)
      · cases h; exact nw_set hi hx (Or.inl rfl)
      · simp at h
    · simp at h
  | finish q =>
    simp only [step] at h
    split at h
    · rename_i x hx
      split at h
      · split at h
        · cases h; exact nw_set hi hx (Or.inr rfl)
        · simp at h
      · simp at h
    · simp at h
  | tick q =>
    simp only [step] at h
    split at h
    · rename_i x hx
      split at h
      · split at h
        · simp at h
        · cases h; exact nw_set hi hx (Or.inl rfl)
      · simp at h
    · simp at h
  | alloc ok =>
    simp only [step] at h
    split at h
    · cases h
      rcases alloc_cases s ok with ⟨h1, -⟩ | ⟨k, e, h0, h1, -⟩ | ⟨-, h1, -⟩
      · rw [h1]; exact hi
      · rw [h1]; exact hi
      · rw [h1]; exact nw_addQ hi
    · simp at h
  | free q =>
    simp only [step] at h
    split at h
    · cases h
      simp only [free]
      split
      · split <;> exact hi
      · exact hi
    · simp at h
  | shrink c w =>
    simp only [step] at h
    split at h
    · cases h
      have h1 : ∀ (t : St) l, NoWaits t → NoWaits (setWaits t c w l) := by
        intro t l ht
        cases c with
        | none => exact ht
        | some c => cases w with
          | true => simp [noSelfWait] at hn
          | false => exact ht
      simp only [shrink]
      split
      · split
        · split
          · exact h1 _ _ (nw_modQ (s := { s with pool := s.pool.dropLast }) hi (fun _ => rfl))
          · exact hi
        · exact hi
      · exact hi
    · simp at h
  | shrinkAll c w =>
    simp only [step] at h
    split at h
    · cases h; exact nw_shrinkAll hi hn
    · simp at h
  | exit q =>
    simp only [step] at h
    split at h
    · rename_i x hx
      split at h
      · cases h; exact nw_set hi hx (Or.inl rfl)
      · simp at h
    · simp at h
  | destroy w =>
    simp only [step] at h
    split at h
    · cases h; exact nw_shrinkAll (c := none) (w := w) hi rfl
    · simp at h
  | freePool =>
    simp only [step] at h
    split at h
    · split at h
      · cases h; exact hi
      · simp at h
    · simp at h

theorem nw_run {s s' : St} (acts : List Act) (hn : ∀ a ∈ acts, noSelfWait a = true) (hi : NoWaits s) (h : run s acts = some s') : NoWaits s' := by
  induction acts generalizing s with
  | nil => simp [run] at h; subst h; exact hi
  | cons a as ih =>
    simp only [run] at h
    split at h
    · rename_i s1 h1
      exact ih (fun a ha => hn a (List.mem_cons_of_mem _ ha)) (nw_step (hn a (by simp)) hi h1) h
    · simp at h

theorem run_append {s s' : St} {as bs : List Act} (h : run s as = some s') : run s (as ++ bs) = run s' bs := by
  induction as generalizing s with
  | nil => simp [run] at h; simp [h]
  | cons a as ih =>
    simp only [run, List.cons_append] at h ⊢
    split at h
    · exact ih h
    · simp at h

/-- The steps of queue `q`'s own thread that execute what is left and end it. Models no code of its own. -/
def ownSteps (q : Nat) : Act → Bool
  | .start r => r == q
  | .finish r => r == q
  | .exit r => r == q
  | _ => false

/-- An idle, terminated queue executes its functions and ends. -/
theorem drain_idle (q n : Nat) : ∀ (s : St) (x : Q), s.qs[q]? = some x → x.run = none → x.waits = [] → x.term = true → x.hold = 0 → x.gone = false → x.pend.length = n →
    ∃ acts s', (∀ a ∈ acts, ownSteps q a = true) ∧ run s acts = some s' ∧ ∃ y : Q, s'.qs[q]? = some y ∧ y.gone = true := by
  induction n with
  | zero =>
    intro s x hx hr hw ht hh hg hl
    have hp : x.pend = [] := by cases hp : x.pend with
      | nil => rfl
      | cons a as => simp [hp] at hl
    refine ⟨[.exit q], { s with qs := s.qs.set q { x with gone := true }, ub := s.ub || s.freed }, by simp [ownSteps], by simp [run, step, hx, hr, ht, hh, hg, hp], ?_⟩
    exact ⟨_, by rw [List.getElem?_set_self (lt_of_get hx)], rfl⟩
  | succ n ih =>
    intro s x hx hr hw ht hh hg hl
    cases hp : x.pend with
    | nil => simp [hp] at hl
    | cons i rest =>
      have hn : rest.length = n := by simp [hp] at hl; omega
      have h1 : ∃ s1, step s (.start q) = some s1 ∧ s1.qs[q]? = some { x with pend := rest, run := some i } := by
        cases i with
        | job j => exact ⟨{ s with qs := s.qs.set q { x with pend := rest, run := some (.job j) } }, by simp [step, hx, hr, hp], by rw [List.getElem?_set_self (lt_of_get hx)]⟩
        | timer => exact ⟨{ s with qs := s.qs.set q { x with pend := rest, run := some .timer } }, by simp [step, hx, hr, hp], by rw [List.getElem?_set_self (lt_of_get hx)]⟩
        | promise p =>
          refine ⟨{ s with qs := s.qs.set q { x with pend := rest, run := some (.promise p) }, cnt := s.cnt.set p ((s.cnt[p]?.getD 0) - 1),
                            log := if (s.cnt[p]?.getD 0) - 1 = 0 then s.log ++ [.tailRan p] else s.log }, by simp only [step, hx, hr, hp], ?_⟩
          simp only
          rw [List.getElem?_set_self (lt_of_get hx)]
      obtain ⟨s1, e1, k1⟩ := h1
      have h2 : ∃ s2, step s1 (.finish q) = some s2 ∧ s2.qs[q]? = some { x with pend := rest, run := none, waits := [] } := by
        refine ⟨{ s1 with qs := s1.qs.set q { x with pend := rest, run := none, waits := [] }, log := match i with | .job j => s1.log ++ [.finished j] | _ => s1.log }, ?_, ?_⟩
        · simp only [step, k1, hw, allGone, List.all_nil, if_true]; cases i <;> rfl
        · simp only; rw [List.getElem?_set_self (lt_of_get k1)]
      obtain ⟨s2, e2, k2⟩ := h2
      obtain ⟨acts, s', a1, a2, a3⟩ := ih s2 _ k2 rfl rfl ht hh hg hn
      refine ⟨.start q :: .finish q :: acts, s', ?_, by simp only [run, e1, e2]; exact a2, a3⟩
      intro a ha
      simp at ha
      rcases ha with rfl | rfl | ha
      · simp [ownSteps]
      · simp [ownSteps]
      · exact a1 a ha

/-- C100, what holds: in every history in which no function run by a queue of the pool itself waits for a shrink, a queue taken out of
the pool can always end by steps of its own thread alone, as soon as the calls holding it have returned, so whoever waits for it is
released. -/
theorem C100_ends_partial (size : Nat) (acts : List Act) (s : St) (hn : ∀ a ∈ acts, noSelfWait a = true) (h : run (init size) acts = some s)
    (q : Nat) (x : Q) (hx : s.qs[q]? = some x) (ht : x.term = true) (hh : x.hold = 0) :
    ∃ more s', (∀ a ∈ more, ownSteps q a = true) ∧ run s more = some s' ∧ ∃ y : Q, s'.qs[q]? = some y ∧ y.gone = true := by
  have hw : NoWaits s := nw_run acts hn (by intro q x h; simp [init] at h) h
  have hwx := hw q x hx
  cases hg : x.gone with
  | true => exact ⟨[], s, by simp, rfl, x, hx, hg⟩
  | false =>
    cases hr : x.run with
    | none => exact drain_idle q _ s x hx hr hwx ht hh hg rfl
    | some i =>
      have e : ∃ s1, step s (.finish q) = some s1 ∧ s1.qs[q]? = some { x with run := none, waits := [] } := by
        refine ⟨{ s with qs := s.qs.set q { x with run := none, waits := [] }, log := match i with | .job j => s.log ++ [.finished j] | _ => s.log }, ?_, ?_⟩
        · simp only [step, hx, hr, hwx, allGone, List.all_nil, if_true]; cases i <;> rfl
        · simp only; rw [List.getElem?_set_self (lt_of_get hx)]
      obtain ⟨s1, e1, k1⟩ := e
      obtain ⟨more, s', a1, a2, a3⟩ := drain_idle q _ s1 _ k1 rfl rfl ht hh hg rfl
      refine ⟨.finish q :: more, s', ?_, by simp only [run, e1]; exact a2, a3⟩
      intro a ha
      simp at ha
      rcases ha with rfl | ha
      · simp [ownSteps]
      · exact a1 a ha

/-- A queue with two functions left is shrunk away from outside; it executes them and ends. Models no code of its own. -/
def exEnd : List Act := [.get true, .get true, .put 0, .put 1, .queue 1, .queue 1, .start 1, .shrink none true]

example : (∀ a ∈ exEnd, noSelfWait a = true) ∧ ((run (init 2) exEnd).bind (fun s => s.qs[1]?)) =
    some { pend := [.job 1], run := some (.job 0), hold := 0, term := true, gone := false, waits := [] } ∧
    (((run (init 2) (exEnd ++ [.finish 1, .start 1, .finish 1, .exit 1])).bind (fun s => s.qs[1]?)).map (·.gone)) = some true := by decide +kernel

/-! ## C101: destroying a pool -/

/-- C101 fails without waiting: `aosl_mpqp_destroy (qp, 0)` frees the pool while its queues are still ending, and each of them reads it
when it ends. -/
theorem C101_uaf : ∃ s, run (init 1) [.get true, .put 0, .destroy false, .freePool, .exit 0] = some s ∧ s.ub = true := ⟨_, rfl, rfl⟩

/-- C101 also fails with waiting, if a queue shrunk away earlier without waiting is still ending. -/
theorem C101_uaf_shrunk : ∃ s, run (init 2) [.get true, .get true, .put 0, .put 1, .shrink none false, .destroy true, .exit 0, .freePool, .exit 1] = some s ∧
    s.ub = true := ⟨_, rfl, by decide +kernel⟩

/-- After the destruction began: every queue has ended or is waited for; once the pool is freed, every queue has ended. Models no code of its own. -/
structure DInv (s : St) : Prop where
  ub : s.ub = false
  d : ∃ l, s.dtor = some l ∧ ∀ (q : Nat) (x : Q), s.qs[q]? = some x → x.gone = true ∨ q ∈ l
  f : s.freed = true → ∀ (q : Nat) (x : Q), s.qs[q]? = some x → x.gone = true

theorem d_set {s : St} (hi : DInv s) {q : Nat} {x y : Q} (hx : s.qs[q]? = some x) (hy : x.gone = true → y.gone = true) (ub : Bool) (hub : ub = false)
    {s' : St} (e1 : s'.qs = s.qs.set q y) (e2 : s'.ub = ub) (e3 : s'.dtor = s.dtor) (e4 : s'.freed = s.freed) : DInv s' := by
  obtain ⟨l, h1, h2⟩ := hi.d
  refine ⟨by rw [e2, hub], ⟨l, by rw [e3, h1], ?_⟩, ?_⟩
  · intro r z h
    rw [e1] at h
    rcases get_set h with ⟨rfl, rfl⟩ | ⟨_, h⟩
    · rcases h2 _ _ hx with h | h
      · exact Or.inl (hy h)
      · exact Or.inr h
    · exact h2 r z h
  · intro hf r z h
    rw [e4] at hf
    rw [e1] at h
    rcases get_set h with ⟨rfl, rfl⟩ | ⟨_, h⟩
    · exact hy (hi.f hf _ _ hx)
    · exact hi.f hf r z h

theorem d_step {s s' : St} {a : Act} (hi : DInv s) (h : step s a = some s') : DInv s' := by
  obtain ⟨l, hd, hl⟩ := hi.d
  have hus : usable s = false := by simp [usable, hd]
  have hub := hi.ub
  cases a with
  | get ok => simp [step, hus] at h
  | tail ok => simp [step, hus] at h
  | alloc ok => simp [step, hus] at h
  | free q => simp [step, hus] at h
  | shrink c w => simp [step, hus] at h
  | shrinkAll c w => simp [step, hus] at h
  | destroy w => simp [step, hus] at h
  | put q =>
    simp only [step] at h
    split at h
    · rename_i x hx
      split at h
      · cases h; exact d_set hi hx (by exact id) _ hub rfl rfl rfl rfl
      · simp at h
    · simp at h
  | queue q =>
    simp only [step] at h
    split at h
    · rename_i x hx
      split at h
      · simp at h
      · cases h; exact d_set hi hx (by exact id) _ hub rfl rfl rfl rfl
    · simp at h
  | start q =>
    simp only [step] at h
    split at h
    · rename_i x hx
      split at h
      · cases h; exact d_set hi hx (by exact id) _ hub rfl rfl rfl rfl
      · cases h; exact d_set hi hx (by exact id) _ hub rfl rfl rfl rfl
      · simp at h
    · simp at h
  | finish q =>
    simp only [step] at h
    split at h
    · rename_i x hx
      split at h
      · split at h
        · cases h; exact d_set hi hx (by exact id) _ hub rfl rfl rfl rfl
        · simp at h
      · simp at h
    · simp at h
  | tick q =>
    simp only [step] at h
    split at h
    · rename_i x hx
      split at h
      · split at h
        · simp at h
        · rename_i hg
          cases h
          have hf : s.freed = false := by
            cases hf : s.freed with
            | false => rfl
            | true => exact absurd (hi.f hf _ _ hx) hg
          exact d_set hi hx (by exact id) _ (by rw [hub, hf]; rfl) rfl rfl rfl rfl
      · simp at h
    · simp at h
  | exit q =>
    simp only [step] at h
    split at h
    · rename_i x hx
      split at h
      · rename_i hg
        cases h
        have hf : s.freed = false := by
          cases hf : s.freed with
          | false => rfl
          | true => simp [hi.f hf _ _ hx] at hg
        exact d_set hi hx (by simp) _ (by rw [hub, hf]; rfl) rfl rfl rfl rfl
      · simp at h
    · simp at h
  | freePool =>
    simp only [step, hd] at h
    split at h
    · rename_i hc
      cases h
      refine ⟨hub, ⟨l, rfl, hl⟩, fun _ q x hx => ?_⟩
      rcases hl q x hx with h | h
      · exact h
      · have := hc.2
        simp only [allGone, List.all_eq_true] at this
        have := this q h
        simp only [hx] at this
        exact this
    · simp at h

/-- C101, what holds: destroying the pool with waiting, from outside, when every queue that had left the pool before has ended, is safe: nothing
ever touches the freed pool, whatever the queues still do. -/
theorem C101_destroy_partial (s : St) (h : Reachable s) (hd : s.dtor = none)
    (hg : ∀ (q : Nat) (x : Q), s.qs[q]? = some x → q ∉ s.pool.map (·.q) → x.gone = true) (acts : List Act) (s' : St)
    (hr : run s (.destroy true :: acts) = some s') : s'.ub = false := by
  have hi := inv_reach h
  obtain ⟨hub, hfr⟩ := hi.ub hd
  simp only [run] at hr
  split at hr
  · rename_i s1 h1
    have hd1 : DInv s1 := by
      simp only [step] at h1
      split at h1
      · cases h1
        refine ⟨hub, ⟨s.pool.map (·.q), by simp, ?_⟩, by simp [shrinkAll, emit, setWaits, hfr]⟩
        intro q x hx
        simp only [shrinkAll, emit, setWaits, List.getElem?_mapIdx] at hx
        by_cases hm : q ∈ s.pool.map (·.q)
        · exact Or.inr hm
        · left
          cases hy : s.qs[q]? with
          | none => rw [hy] at hx; simp at hx
          | some y =>
            rw [hy] at hx
            simp only [Option.map_some, hm, if_false, Option.some.injEq] at hx
            subst hx
            exact hg q y hy hm
      · simp at h1
    clear h1
    induction acts generalizing s1 with
    | nil => simp [run] at hr; subst hr; exact hd1.ub
    | cons a as ih =>
      simp only [run] at hr
      split at hr
      · rename_i s2 h2; exact ih s2 hr (d_step hd1 h2)
      · simp at hr
  · simp at hr

/-- A pool with a busy queue and one shrunk away and ended is destroyed; the pool is freed after both have ended. Models no code of its own. -/
def exDtor : List Act := [.get true, .get true, .put 0, .put 1, .queue 0, .shrink none true, .exit 1]

example : ∃ s, run (init 2) exDtor = some s ∧ s.dtor = none ∧ s.pool.map (·.q) = [0] ∧ (s.qs.map (·.gone)) = [false, true] ∧
    ((run s [.destroy true, .tick 0, .finish 0, .start 0, .finish 0, .exit 0, .freePool]).map (·.freed)) = some true := ⟨_, rfl, by decide +kernel⟩

end Verif.Pool
