import Verif.MainQ
/-! # C221: telling the main queue from the others; C222: starting it again after it ended -/
namespace Verif.MainQ

/-! ## What holds in every reachable state -/

structure Ok (s : St) : Prop where
  pos : 1 ≤ s.next
  fresh : ∀ i, s.next ≤ i → s.ph i = .absent ∧ s.isM i = false
  wait : ∀ t i, s.sts t = .wait i → s.isM i = true ∧ s.starter i = t ∧ s.ph i ≠ .absent ∧ s.ph i ≠ .up
  got : ∀ t i, s.sts t = .got i → s.isM i = true ∧ s.starter i = t ∧ s.ph i ≠ .absent ∧ s.ph i ≠ .init
  ini : ∀ i, s.ph i = .init → s.isM i = true ∧ s.sts (s.starter i) = .wait i
  act : ∀ t, s.sts t ≠ .idle → s.cell = .creating
  one : ∀ t t', s.sts t ≠ .idle → s.sts t' ≠ .idle → t = t'
  cellq : ∀ i, s.cell = .q i → s.isM i = true ∧ s.ph i ≠ .absent ∧ s.ph i ≠ .init
  runs : ∀ i, s.isM i = true → s.ph i = .up ∨ s.ph i = .ending ∨ s.ph i = .detached →
    s.sts (s.starter i) = .wait i ∨ s.sts (s.starter i) = .got i ∨ s.cell = .q i
  creat : s.cell = .creating → (∃ t, s.sts t ≠ .idle) ∨ s.failed = true
  prot : s.stripped = false → ∀ i, s.isM i = true → s.prot i = true
  gotUp : s.stripped = false → ∀ t i, s.sts t = .got i → s.ph i = .up ∧ s.term i = false
  initTerm : s.stripped = false → ∀ i, s.ph i = .init → s.term i = false
  absTerm : ∀ i, s.ph i = .absent → s.term i = false
  live : s.stripped = false → ∀ i, s.cell = .q i → s.ph i = .up ∨ s.ph i = .ending ∨ s.ph i = .detached

theorem ok0 : Ok init0 := by
  constructor <;> simp [init0]

set_option maxHeartbeats 4000000 in
theorem ok_step (s s' : St) (e : Ev) (h : Ok s) (hs : step s e = some s') : Ok s' := by
  obtain ⟨h1, h2, h3, h4, h5, h6, h7, h8, h9, h10, h11, h12, h13, h14, h15⟩ := h
  cases e <;> simp only [step, installed] at hs <;> (try split at hs) <;> (try split at hs) <;> cases hs <;>
    constructor <;> (try simp only [set]) <;> grind

theorem ok (s : St) (h : Reach s) : Ok s := by
  induction h with
  | start => exact ok0
  | step e _ _ hs ih => exact ok_step _ _ e ih hs

/-! ## C221 -/

/-- The thread of queue `i` runs something of the user's with the queue known: the init callback, functions, timers and descriptors, the fini callback. -/
def onQueue (s : St) (i : Nat) : Prop := s.ph i = .init ∨ s.ph i = .up ∨ s.ph i = .ending

/-- The call of `aosl_main_start` that made main queue `i` has returned 0 (or has at least stored the handle): it neither waits for the queue nor holds it. -/
def returned (s : St) (i : Nat) : Prop := s.isM i = true ∧ s.sts (s.starter i) ≠ .wait i ∧ s.sts (s.starter i) ≠ .got i

/-- **C221**, in every history, even where the protection of a main queue is removed: on a thread without a queue and on every queue that is no main queue `aosl_mpq_is_main`
answers 0, and it answers 1 on at most one queue. -/
theorem C221_others (s : St) (h : Reach s) :
    isMain s none = 0 ∧ (∀ i, s.isM i = false → isMain s (some i) = 0) ∧ (∀ i j, isMain s (some i) = 1 → isMain s (some j) = 1 → i = j) ∧
    (∀ c, isMain s c = 0 ∨ isMain s c = 1) := by
  have ho := ok s h
  refine ⟨rfl, fun i hi => ?_, fun i j => ?_, fun c => ?_⟩
  · have := ho.cellq i
    simp only [isMain]; grind
  · simp only [isMain]; grind
  · cases c <;> simp only [isMain] <;> grind

/-- **C221**, what holds: whatever runs on a main queue whose `aosl_main_start` has returned is told so, in every history, until the fini callback returned; and `aosl_mpq_main`
gives the handle of that queue. -/
theorem C221_main_partial (s : St) (h : Reach s) (i : Nat) (hr : returned s i) (ho : onQueue s i) : isMain s (some i) = 1 ∧ mpqMain s = i ∧ started s = true := by
  have hk := ok s h
  obtain ⟨h1, h2, h3⟩ := hr
  have hni : s.ph i ≠ .init := fun hi => h2 (hk.ini i hi).2
  have hc : s.cell = .q i := by
    rcases ho with ho | ho | ho
    · exact absurd ho hni
    · rcases hk.runs i h1 (Or.inl ho) with h4 | h4 | h4
      · exact absurd h4 h2
      · exact absurd h4 h3
      · exact h4
    · rcases hk.runs i h1 (Or.inr (Or.inl ho)) with h4 | h4 | h4
      · exact absurd h4 h2
      · exact absurd h4 h3
      · exact h4
  refine ⟨?_, ?_, ?_⟩
  · simp only [isMain, hc, onQueue] at *; simp [ho]
  · simp [mpqMain, hc]
  · simp [started, mpqMain, hc]

/-- **C221**: exactly when `aosl_mpq_is_main` answers 1: on a main queue whose `aosl_main_start` has returned. Nothing else is told so. -/
theorem C221_iff (s : St) (h : Reach s) (i : Nat) : isMain s (some i) = 1 ↔ returned s i ∧ onQueue s i := by
  constructor
  · intro h1
    have hk := ok s h
    have h8 := hk.cellq i
    have h6 := hk.act (s.starter i)
    simp only [isMain, returned, onQueue] at *
    grind
  · exact fun hr => (C221_main_partial s h i hr.1 hr.2).1

/-- **C221** fails in the init callback of the main queue: always, in every history, `aosl_mpq_is_main` answers 0 there, no queue has the handle `aosl_mpq_main` gives, `aosl_main_started` says yes,
and `aosl_main_exit` does not find the queue. -/
theorem C221_init_broken (s : St) (h : Reach s) (i : Nat) (hi : s.ph i = .init) :
    s.isM i = true ∧ isMain s (some i) = 0 ∧ mpqMain s = 0 ∧ s.ph 0 = .absent ∧ started s = true ∧ step s .mainExit = none := by
  have hk := ok s h
  obtain ⟨h1, h2⟩ := hk.ini i hi
  have hc := hk.act (s.starter i) (by rw [h2]; simp)
  have h0 : s.ph 0 = .absent := by
    have : ∀ s, Reach s → s.ph 0 = .absent ∧ 1 ≤ s.next := by
      intro s h
      induction h with
      | start => simp [init0]
      | step e _ _ hs ih =>
        cases e <;> simp only [step] at hs <;> (try split at hs) <;> (try split at hs) <;> cases hs <;> simp only [set] <;> grind
    exact (this s h).1
  exact ⟨h1, by simp [isMain, hc], by simp [mpqMain, hc], h0, by simp [started, mpqMain, hc], by simp [step, hc]⟩

/-- **C221** fails also for functions on the main queue that run before the starter was scheduled again: the queue is up, and they are told they are not on the main queue. -/
theorem C221_early_broken : ∃ s, Reach s ∧ s.ph 1 = .up ∧ s.isM 1 = true ∧ isMain s (some 1) = 0 ∧ mpqMain s = 0 := by
  refine ⟨_, .step (.initOk 1) (.step (.born 7) (.step (.start 7) .start rfl rfl) rfl rfl) rfl rfl, ?_⟩
  decide

/-! ## C222 -/

/-- **C222**: once a main queue has ended (whoever waited for it with `aosl_main_exit_wait` is only told later), `aosl_mpq_main` does not give its handle any more, on every history in which
the protection of no main queue is removed. -/
theorem C222_forgotten (s : St) (h : Reach s) (hs : s.stripped = false) (i : Nat) (hg : s.ph i = .cleared ∨ s.ph i = .gone) : s.cell ≠ .q i := by
  intro hc
  rcases (ok s h).live hs i hc with h1 | h1 | h1 <;> rcases hg with h2 | h2 <;> rw [h1] at h2 <;> cases h2

/-- **C222**: if no start has failed, no protection was removed, nobody is starting a main queue now and all main queues have ended, then `aosl_main_start` is not refused:
it gets as far as creating a queue, for every thread that calls it. -/
theorem C222_restart_partial (s : St) (h : Reach s) (hf : s.failed = false) (hs : s.stripped = false) (hn : ∀ t, s.sts t = .idle)
    (hg : ∀ i, s.isM i = true → s.ph i = .cleared ∨ s.ph i = .gone) (t : Nat) :
    refused s = false ∧ (step s (.start t)).isSome = true ∧ mpqMain s = -1 ∧ started s = false := by
  have hk := ok s h
  have hc : s.cell = .free := by
    cases hc : s.cell with
    | free => rfl
    | creating =>
      rcases hk.creat hc with ⟨t', ht⟩ | hfl
      · exact absurd (hn t') ht
      · rw [hf] at hfl; cases hfl
    | q i => exact absurd hc (C222_forgotten s h hs i (hg i (hk.cellq i hc).1))
  simp [refused, step, mpqMain, started, hc, hn t]

/-- Nobody starts a main queue, and none exists or will. -/
structure Lost (s : St) : Prop where
  idle : ∀ t, s.sts t = .idle
  cell : s.cell ≠ .free
  dead : ∀ i, s.cell = .q i → s.ph i = .cleared ∨ s.ph i = .gone
  noInit : ∀ i, s.ph i ≠ .init
  fresh : ∀ i, s.next ≤ i → s.ph i = .absent

theorem lost_step (s s' : St) (e : Ev) (h : Lost s) (hs : step s e = some s') : Lost s' ∧ s'.cell = s.cell := by
  obtain ⟨h1, h2, h3, h4, h5⟩ := h
  cases e <;> simp only [step] at hs <;> (try split at hs) <;> (try split at hs) <;> cases hs <;>
    (refine ⟨⟨?_, ?_, ?_, ?_, ?_⟩, ?_⟩ <;> (try simp only [set]) <;> grind)

/-- The states that can be reached are the ends of histories: `runs` makes every history of steps that do not go on after an error of memory, and no other. -/
theorem C222_histories (s : St) : Reach s ↔ ∃ es, runs init0 es = some s := by
  have app : ∀ (es : List Ev) (a b c : St) (e : Ev), runs a es = some b → b.ub = false → step b e = some c → runs a (es ++ [e]) = some c := by
    intro es
    induction es with
    | nil =>
      intro a b c e h hu hs
      simp only [runs, Option.some.injEq] at h
      subst h
      simp [runs, hu, hs]
    | cons x es ih =>
      intro a b c e h hu hs
      simp only [runs] at h
      split at h
      · cases h
      · rename_i hx
        obtain ⟨u, h1, h2⟩ := Option.bind_eq_some_iff.1 h
        simp only [List.cons_append, runs, hx, h1, Option.bind_some]
        exact ih u b c e h2 hu hs
  have back : ∀ (es : List Ev) (a b : St), Reach a → runs a es = some b → Reach b := by
    intro es
    induction es with
    | nil => intro a b ha h; simp only [runs, Option.some.injEq] at h; exact h ▸ ha
    | cons x es ih =>
      intro a b ha h
      simp only [runs] at h
      split at h
      · cases h
      · rename_i hx
        obtain ⟨u, h1, h2⟩ := Option.bind_eq_some_iff.1 h
        exact ih u b (.step x ha (by simpa using hx) h1) h2
  constructor
  · intro h
    induction h with
    | start => exact ⟨[], rfl⟩
    | step e h hu hs ih => obtain ⟨es, hes⟩ := ih; exact ⟨es ++ [e], app es _ _ _ e hes hu hs⟩
  · rintro ⟨es, h⟩; exact back es _ _ .start h

theorem lost_runs (es : List Ev) : ∀ s s', Lost s → runs s es = some s' → Lost s' ∧ s'.cell = s.cell := by
  induction es with
  | nil => intro s s' h hs; simp only [runs, Option.some.injEq] at hs; subst hs; exact ⟨h, rfl⟩
  | cons e es ih =>
    intro s s' h hs
    simp only [runs] at hs
    split at hs
    · cases hs
    · cases he : step s e with
      | none => rw [he] at hs; cases hs
      | some s1 =>
        rw [he] at hs
        obtain ⟨h1, h2⟩ := lost_step s s1 e h he
        obtain ⟨h3, h4⟩ := ih s1 s' h1 hs
        exact ⟨h3, h4.trans h2⟩

/-- **C221, C222** fail where the protection of the main queue is removed (aosl_mpq_change_flags does so, C165) and the queue is destroyed before the starter runs again: `aosl_main_start` stores the
handle of a dead queue. From then on, whatever happens, `aosl_main_started` says yes, `aosl_mpq_main` gives that handle, and every `aosl_main_start` is refused. -/
theorem C222_stale_broken : ∃ s, Reach s ∧ s.ub = false ∧ s.failed = false ∧ ∀ es s', runs s es = some s' →
    started s' = true ∧ mpqMain s' = 1 ∧ (s'.ph 1 = .cleared ∨ s'.ph 1 = .gone) ∧ refused s' = true := by
  obtain ⟨s, hr, hc, hp, hu, hf⟩ : ∃ s, Reach s ∧ s.cell = .q 1 ∧ s.ph 1 = .cleared ∧ s.ub = false ∧ s.failed = false :=
    ⟨_, .step (.assign 7) (.step (.clear 1) (.step (.detach 1) (.step (.leave 1) (.step (.destroy 1) (.step (.strip 1)
      (.step (.initOk 1) (.step (.born 7) (.step (.start 7) .start rfl rfl) rfl rfl) rfl rfl) rfl rfl) rfl rfl) rfl rfl) rfl rfl) rfl rfl) rfl rfl, rfl, rfl, rfl, rfl⟩
  refine ⟨s, hr, hu, hf, fun es s' hs => ?_⟩
  have hk := ok s hr
  have hidle : ∀ t, s.sts t = .idle := fun t => by
    have := hk.act t
    cases h : s.sts t <;> simp_all
  have hl : Lost s := ⟨hidle, by simp [hc], fun i hi => (by rw [hc] at hi; cases hi; exact .inl hp),
    fun i hi => (by have := (hk.ini i hi).2; rw [hidle] at this; cases this), fun i hi => (hk.fresh i hi).1⟩
  obtain ⟨hl', hc'⟩ := lost_runs es s s' hl hs
  rw [hc] at hc'
  exact ⟨by simp [started, mpqMain, hc'], by simp [mpqMain, hc'], hl'.dead 1 hc', by simp [refused, hc']⟩

/-- ... and the queue may even be freed already: `aosl_main_start` then reads the handle out of freed memory. -/
theorem C222_uaf_broken : ∃ s, Reach s ∧ s.ub = true := by
  refine ⟨_, .step (.assign 7) (.step (.free 1) (.step (.clear 1) (.step (.detach 1) (.step (.leave 1) (.step (.destroy 1) (.step (.strip 1)
    (.step (.initOk 1) (.step (.born 7) (.step (.start 7) .start rfl rfl) rfl rfl) rfl rfl) rfl rfl) rfl rfl) rfl rfl) rfl rfl) rfl rfl) rfl rfl) rfl rfl, rfl⟩

/-- **C222**: while no protection is removed this does not happen, in any history: no freed memory is read. -/
theorem C222_safe_partial (s : St) (h : Reach s) (hs : s.stripped = false) : s.ub = false := by
  induction h with
  | start => rfl
  | step e hr hu hst ih =>
    have hk := ok _ hr
    cases e <;> simp only [step] at hst <;> (try split at hst) <;> (try split at hst) <;> cases hst <;> dsimp only at hs ⊢ <;> (try exact hu)
    rename_i t _ i hgt hgo
    have := hk.gotUp hs t i hgt
    rw [hgo] at this; cases this.1

/-- **C221, C222** fail after a start that failed (C61): nothing exists, and for ever `aosl_main_started` says yes and starts are refused. -/
theorem C222_failed_broken : ∃ s, Reach s ∧ s.ub = false ∧ s.stripped = false ∧ (∀ i, s.ph i = .absent) ∧ ∀ es s', runs s es = some s' → started s' = true ∧ refused s' = true := by
  obtain ⟨s, hr, hc, hp, hu, hf, hi⟩ : ∃ s, Reach s ∧ s.cell = .creating ∧ (∀ i, s.ph i = .absent) ∧ s.ub = false ∧ s.stripped = false ∧ ∀ t, s.sts t = .idle :=
    ⟨_, .step (.noQueue 7) (.step (.start 7) .start rfl rfl) rfl rfl, rfl, fun _ => rfl, rfl, rfl, fun t => by simp only [init0, set]; split <;> rfl⟩
  refine ⟨s, hr, hu, hf, hp, fun es s' hs => ?_⟩
  have hl : Lost s := ⟨hi, by simp [hc], fun i h => (by rw [hc] at h; cases h), fun i h => (by rw [hp] at h; cases h), fun i _ => hp i⟩
  obtain ⟨_, hc'⟩ := lost_runs es s s' hl hs
  rw [hc] at hc'
  exact ⟨by simp [started, mpqMain, hc'], by simp [refused, hc']⟩

/-! ## The hypotheses are met -/

/-- A main queue that works, among others: started by thread 7 while thread 8 created another queue. -/
example : ∃ s, Reach s ∧ returned s 1 ∧ onQueue s 1 ∧ onQueue s 2 ∧ isMain s (some 1) = 1 ∧ isMain s (some 2) = 0 := by
  refine ⟨_, .step (.assign 7) (.step .other (.step (.initOk 1) (.step (.born 7) (.step (.start 7) .start rfl rfl) rfl rfl) rfl rfl) rfl rfl) rfl rfl, ?_⟩
  refine ⟨⟨rfl, ?_, ?_⟩, ?_, ?_, rfl, rfl⟩ <;> simp [onQueue, init0, set]

/-- A main queue that ended, and a second one that is up. -/
example : ∃ s, Reach s ∧ s.failed = false ∧ s.stripped = false ∧ s.ph 1 = .gone ∧ isMain s (some 2) = 1 := by
  refine ⟨_, .step (.assign 8) (.step (.initOk 2) (.step (.born 8) (.step (.start 8) (.step (.free 1) (.step (.clear 1) (.step (.detach 1) (.step (.leave 1) (.step .mainExit
    (.step (.assign 7) (.step (.initOk 1) (.step (.born 7) (.step (.start 7) .start rfl rfl) rfl rfl) rfl rfl) rfl rfl) rfl rfl) rfl rfl) rfl rfl) rfl rfl) rfl rfl) rfl rfl) rfl rfl) rfl rfl)
    rfl rfl, rfl, rfl, rfl, rfl⟩

/-- The state of `C222_restart_partial` after one whole life. -/
example : ∃ s, Reach s ∧ s.failed = false ∧ s.stripped = false ∧ (∀ t, s.sts t = .idle) ∧ s.isM 1 = true ∧ (∀ i, s.isM i = true → s.ph i = .cleared ∨ s.ph i = .gone) := by
  obtain ⟨s, hr, hc, hf, hs, h1, hp, h0, hn⟩ : ∃ s, Reach s ∧ s.cell = .free ∧ s.failed = false ∧ s.stripped = false ∧ s.isM 1 = true ∧ s.ph 1 = .cleared ∧ s.isM 0 = false ∧ s.next = 2 :=
    ⟨_, .step (.clear 1) (.step (.detach 1) (.step (.leave 1) (.step .mainExit
      (.step (.assign 7) (.step (.initOk 1) (.step (.born 7) (.step (.start 7) .start rfl rfl) rfl rfl) rfl rfl) rfl rfl) rfl rfl) rfl rfl) rfl rfl) rfl rfl, rfl, rfl, rfl, rfl, rfl, rfl, rfl⟩
  have hk := ok s hr
  refine ⟨s, hr, hf, hs, fun t => ?_, h1, fun i hi => ?_⟩
  · have := hk.act t
    cases h : s.sts t <;> simp_all
  · have h2 := hk.fresh i
    match i with
    | 0 => rw [h0] at hi; cases hi
    | 1 => exact .inl hp
    | n + 2 => rw [(h2 (by omega)).2] at hi; cases hi

/-- A queue in its init callback. -/
example : ∃ s, Reach s ∧ s.ph 1 = .init := ⟨_, .step (.born 7) (.step (.start 7) .start rfl rfl) rfl rfl, rfl⟩

end Verif.MainQ
