import Verif.Lifecycle
/-! # C60: nesting of aosl_ctor and aosl_dtor; C61: restarting the main queue -/

namespace Verif.Lifecycle

/-! ## C60 -/

theorem owners_snoc (cs : List Call) (c : Call) : owners (cs ++ [c]) = ownStep (owners cs) c := by
  simp only [owners, List.foldl_append, List.foldl_cons, List.foldl_nil]

theorem effects_fst (cs : List Call) : ∀ p : Nat × List Ev, (cs.foldl effStep p).1 = cs.foldl ownStep p.1 := by
  induction cs with
  | nil => intro p; rfl
  | cons c cs ih => intro p; simp only [List.foldl_cons]; rw [ih]; rfl

theorem effects_snoc (cs : List Call) (c : Call) : effects (cs ++ [c]) = effects cs ++ effect (owners cs) c := by
  have h := effects_fst cs (0, [])
  simp only [effects, owners, List.foldl_append, List.foldl_cons, List.foldl_nil] at h ⊢
  simp only [effStep]
  rw [h]

/-- The thread holds the lock. -/
def Holds : Pc → Prop
  | .locked _ => True
  | .body _ _ => True
  | .unlock => True
  | _ => False

/-- What the holder of the lock has done so far. -/
def HolderOk (s : St) : Pc → Prop
  | .locked c => ∃ cs, s.order = cs ++ [c] ∧ s.count = owners cs ∧ s.log = effects cs
  | .body left true => ∃ cs done, s.order = cs ++ [.ctor] ∧ s.count = 0 ∧ owners cs = 0 ∧ inits = done ++ left ∧ s.log = effects cs ++ done
  | .body left false => ∃ cs done, s.order = cs ++ [.dtor] ∧ s.count = 0 ∧ owners cs = 1 ∧ finis = done ++ left ∧ s.log = effects cs ++ done
  | .unlock => s.count = owners s.order ∧ s.log = effects s.order
  | _ => True

structure Inv (s : St) : Prop where
  free : s.lock = false → (∀ p ∈ s.pcs, ¬ Holds p) ∧ s.count = owners s.order ∧ s.log = effects s.order
  held : s.lock = true → s.aborted = false → ∃ (t : Nat) (p : Pc), s.pcs[t]? = some p ∧ Holds p ∧ HolderOk s p ∧ ∀ (t' : Nat) (p' : Pc), s.pcs[t']? = some p' → Holds p' → t' = t
  ab : s.aborted = true → ∃ cs, s.order = cs ++ [.dtor] ∧ owners cs = 1 ∧ s.log = effects cs ∧ s.lock = true

theorem inv_init (n : Nat) : Inv (init n) := by
  refine ⟨fun _ => ⟨?_, rfl, rfl⟩, by simp [init], by simp [init]⟩
  intro p hp
  simp only [init, List.mem_replicate] at hp
  rw [hp.2]; exact id

theorem get_set {l : List Pc} {i j : Nat} {o o' a : Pc} (h : l[i]? = some o) (hj : (l.set i a)[j]? = some o') :
    (j = i ∧ o' = a) ∨ (j ≠ i ∧ l[j]? = some o') := by
  by_cases e : i = j
  · subst e
    rw [List.getElem?_set_self (List.getElem?_eq_some_iff.1 h).1] at hj
    exact Or.inl ⟨rfl, (Option.some.inj hj).symm⟩
  · rw [List.getElem?_set_ne e] at hj
    exact Or.inr ⟨fun h => e h.symm, hj⟩

/-- The holder goes on holding. -/
theorem held_set {s : St} {t : Nat} {p q : Pc} (hp : s.pcs[t]? = some p) (hq : Holds q)
    (hu : ∀ (t' : Nat) (p' : Pc), s.pcs[t']? = some p' → Holds p' → t' = t) : 
    (s.pcs.set t q)[t]? = some q ∧ Holds q ∧ ∀ (t' : Nat) (p' : Pc), (s.pcs.set t q)[t']? = some p' → Holds p' → t' = t := by
  refine ⟨List.getElem?_set_self (List.getElem?_eq_some_iff.1 hp).1, hq, fun t' p' h h' => ?_⟩
  rcases get_set hp h with ⟨e, -⟩ | ⟨-, e⟩
  · exact e
  · exact hu t' p' e h'

theorem step_inv (s : St) (op : Op) (hi : Inv s) : Inv (step s op) := by
  unfold step
  cases hab : s.aborted with
  | true => simpa using hi
  | false =>
  rw [if_neg (by simp)]
  cases op with
  | call t c =>
    simp only
    by_cases hp : s.pcs[t]? = some .idle
    · rw [if_pos hp]
      have hk : ∀ (t' : Nat) (p' : Pc), (s.pcs.set t (.spin c))[t']? = some p' → Holds p' → s.pcs[t']? = some p' := by
        intro t' p' h h'
        rcases get_set hp h with ⟨-, e⟩ | ⟨-, e⟩
        · subst e; exact absurd h' id
        · exact e
      refine ⟨fun h => ?_, fun h _ => ?_, fun h => by simp [hab] at h⟩
      · obtain ⟨h1, h2, h3⟩ := hi.free h
        refine ⟨fun p hp' hh => ?_, h2, h3⟩
        obtain ⟨t', h4⟩ := List.mem_iff_getElem?.1 hp'
        exact h1 p (List.mem_of_getElem? (hk t' p h4 hh)) hh
      · obtain ⟨t0, p, h1, h2, h3, h4⟩ := hi.held h hab
        have hne : t ≠ t0 := by
          intro e; subst e; rw [hp] at h1; cases h1; exact h2
        refine ⟨t0, p, by simp only; rw [List.getElem?_set_ne hne]; exact h1, h2, ?_, fun t' p' h' hh => h4 t' p' (hk t' p' h' hh) hh⟩
        cases p with
        | body left b => cases b <;> exact h3
        | _ => exact h3
    · rw [if_neg hp]; exact hi
  | go t a =>
    simp only [go]
    cases hp : s.pcs[t]? with
    | none => exact hi
    | some p =>
    -- a thread that holds the lock is the holder
    have hlock : Holds p → s.lock = true := by
      intro hh
      cases hl : s.lock with
      | true => rfl
      | false => exact absurd hh ((hi.free hl).1 p (List.mem_of_getElem? hp))
    have hown : Holds p → HolderOk s p ∧ ∀ (t' : Nat) (p' : Pc), s.pcs[t']? = some p' → Holds p' → t' = t := by
      intro hh
      obtain ⟨t0, p0, h1, h2, h3, h4⟩ := hi.held (hlock hh) hab
      have e := h4 t p hp hh
      subst e
      rw [hp] at h1; cases h1
      exact ⟨h3, h4⟩
    cases p with
    | idle => exact hi
    | spin c =>
      simp only
      cases hl : s.lock with
      | true => simpa using hi
      | false =>
        rw [if_neg (by simp)]
        obtain ⟨h1, h2, h3⟩ := hi.free hl
        have hu : ∀ (t' : Nat) (p' : Pc), s.pcs[t']? = some p' → Holds p' → t' = t := fun t' p' h h' => absurd h' (h1 p' (List.mem_of_getElem? h))
        obtain ⟨g1, g2, g3⟩ := held_set (q := .locked c) hp trivial hu
        exact ⟨by simp, fun _ _ => ⟨t, _, g1, g2, ⟨s.order, rfl, h2, h3⟩, g3⟩, by simp [hab]⟩
    | locked c =>
      obtain ⟨⟨cs, h1, h2, h3⟩, hu⟩ := hown trivial
      have hl := hlock trivial
      cases c with
      | ctor =>
        simp only
        by_cases hc : s.count > 0
        · rw [if_pos hc]
          obtain ⟨g1, g2, g3⟩ := held_set (q := .unlock) hp trivial hu
          refine ⟨by simp [hl], fun _ _ => ⟨t, _, g1, g2, ⟨?_, ?_⟩, g3⟩, by simp [hab]⟩
          · simp only [h1, owners_snoc, h2, ownStep]
          · simp only [h1, effects_snoc, h3, effect]
            rw [if_neg (by omega)]; simp
        · rw [if_neg hc]
          obtain ⟨g1, g2, g3⟩ := held_set (q := .body inits true) hp trivial hu
          exact ⟨by simp [hl], fun _ _ => ⟨t, _, g1, g2, ⟨cs, [], h1, by simp only; omega, by omega, rfl, by simp [h3]⟩, g3⟩, by simp [hab]⟩
      | dtor =>
        simp only
        by_cases hc : s.count = 0
        · rw [if_pos hc]
          obtain ⟨g1, g2, g3⟩ := held_set (q := .unlock) hp trivial hu
          refine ⟨by simp [hl], fun _ _ => ⟨t, _, g1, g2, ⟨?_, ?_⟩, g3⟩, by simp [hab]⟩
          · simp only [h1, owners_snoc, ownStep]; omega
          · simp only [h1, effects_snoc, h3, effect]
            rw [if_neg (by omega)]; simp
        · rw [if_neg hc]
          by_cases hc1 : s.count - 1 > 0
          · rw [if_pos hc1]
            obtain ⟨g1, g2, g3⟩ := held_set (q := .unlock) hp trivial hu
            refine ⟨by simp [hl], fun _ _ => ⟨t, _, g1, g2, ⟨?_, ?_⟩, g3⟩, by simp [hab]⟩
            · simp only [h1, owners_snoc, ownStep]; omega
            · simp only [h1, effects_snoc, h3, effect]
              rw [if_neg (by omega)]; simp
          · rw [if_neg hc1]
            cases a with
            | true =>
              rw [if_pos rfl]
              exact ⟨by simp [hl], by simp, fun _ => ⟨cs, h1, by omega, h3, hl⟩⟩
            | false =>
              rw [if_neg (by simp)]
              obtain ⟨g1, g2, g3⟩ := held_set (q := .body finis false) hp trivial hu
              exact ⟨by simp [hl], fun _ _ => ⟨t, _, g1, g2, ⟨cs, [], h1, by simp only; omega, by omega, rfl, by simp [h3]⟩, g3⟩, by simp [hab]⟩
    | body left b =>
      obtain ⟨hk, hu⟩ := hown trivial
      have hl := hlock trivial
      cases left with
      | nil =>
        simp only
        obtain ⟨g1, g2, g3⟩ := held_set (q := .unlock) hp trivial hu
        refine ⟨by simp [hl], fun _ _ => ⟨t, _, g1, g2, ?_, g3⟩, by simp [hab]⟩
        cases b with
        | true =>
          obtain ⟨cs, done, h1, h2, h3, h4, h5⟩ := hk
          refine ⟨?_, ?_⟩
          · simp only [if_true, h1, owners_snoc, h3, ownStep]
          · simp only [h1, effects_snoc, h5, effect, h3, if_true, h4, List.append_nil]
        | false =>
          obtain ⟨cs, done, h1, h2, h3, h4, h5⟩ := hk
          refine ⟨?_, ?_⟩
          · simp only [h1, owners_snoc, h3, h2]; rfl
          · simp only [h1, effects_snoc, h5, effect, h3, if_true, h4, List.append_nil]
      | cons e es =>
        simp only
        obtain ⟨g1, g2, g3⟩ := held_set (q := .body es b) hp trivial hu
        refine ⟨by simp [hl], fun _ _ => ⟨t, _, g1, g2, ?_, g3⟩, by simp [hab]⟩
        cases b with
        | true =>
          obtain ⟨cs, done, h1, h2, h3, h4, h5⟩ := hk
          exact ⟨cs, done ++ [e], h1, h2, h3, by rw [h4]; simp, by simp [h5]⟩
        | false =>
          obtain ⟨cs, done, h1, h2, h3, h4, h5⟩ := hk
          exact ⟨cs, done ++ [e], h1, h2, h3, by rw [h4]; simp, by simp [h5]⟩
    | unlock =>
      obtain ⟨⟨h1, h2⟩, hu⟩ := hown trivial
      simp only
      refine ⟨fun _ => ⟨?_, h1, h2⟩, by simp, by simp [hab]⟩
      intro p' hp' hh
      obtain ⟨t', h4⟩ := List.mem_iff_getElem?.1 hp'
      rcases get_set hp h4 with ⟨-, e⟩ | ⟨h5, e⟩
      · subst e; exact hh
      · exact h5 (hu t' p' e hh)

theorem run_inv (ops : List Op) : ∀ s, Inv s → Inv (run s ops) := by
  induction ops with
  | nil => intro s h; exact h
  | cons op ops ih => intro s h; exact ih _ (step_inv s op h)

/-- **C60.**  For every interleaving of any number of threads: whenever no call is inside its critical section, the initialisation and finalisation functions called so far are
exactly those that the calls would have made one after the other, in the order in which they got the lock, and the count is
the number of owners. -/
theorem C60_serial (threads : Nat) (ops : List Op) (h : (run (init threads) ops).lock = false) :
    (run (init threads) ops).log = effects (run (init threads) ops).order ∧ (run (init threads) ops).count = owners (run (init threads) ops).order := by
  have hi := run_inv ops _ (inv_init threads)
  obtain ⟨-, h2, h3⟩ := hi.free h
  exact ⟨h3, h2⟩

/-- **C60**, mutual exclusion: at most one thread is inside a critical section. -/
theorem C60_exclusive (threads : Nat) (ops : List Op) (h : (run (init threads) ops).aborted = false) (t t' : Nat) (p p' : Pc)
    (hp : (run (init threads) ops).pcs[t]? = some p) (hp' : (run (init threads) ops).pcs[t']? = some p') (hh : Holds p) (hh' : Holds p') : t = t' := by
  have hi := run_inv ops _ (inv_init threads)
  cases hl : (run (init threads) ops).lock with
  | false => exact absurd hh ((hi.free hl).1 p (List.mem_of_getElem? hp))
  | true =>
    obtain ⟨t0, -, -, -, -, h4⟩ := hi.held hl h
    rw [h4 t p hp hh, h4 t' p' hp' hh']

/-- Complete initialisations and finalisations alternate. -/
inductive Alternating : Nat → List Ev → Prop
  | empty : Alternating 0 []
  | up {n : Nat} {l : List Ev} (h : Alternating n l) : Alternating (n + 1) (if n = 0 then l ++ inits else l)
  | down {n : Nat} {l : List Ev} (h : Alternating (n + 1) l) : Alternating n (if n = 0 then l ++ finis else l)

/-- **C60**, the specification itself nests: initialisation by the first owner, finalisation when the last one leaves, nothing in between, nothing for an unmatched `dtor`. -/
theorem C60_nesting (cs : List Call) : Alternating (owners cs) (effects cs) := by
  suffices h : ∀ l : List Call, Alternating (owners l.reverse) (effects l.reverse) by
    have := h cs.reverse; rwa [List.reverse_reverse] at this
  intro l
  induction l with
  | nil => exact .empty
  | cons c l ih =>
    rw [List.reverse_cons, owners_snoc, effects_snoc]
    generalize owners l.reverse = n at ih
    cases c with
    | ctor =>
      have := Alternating.up ih
      simp only [effect]
      by_cases h : n = 0
      · simp only [h, if_true] at this ⊢; exact this
      · simp only [if_neg h, List.append_nil] at this ⊢; exact this
    | dtor =>
      cases n with
      | zero => simpa [effect, ownStep] using ih
      | succ n =>
        have := Alternating.down ih
        simp only [effect]
        by_cases h : n = 0
        · subst h; simpa [ownStep] using this
        · rw [if_neg (by omega)]; rw [if_neg h] at this; simpa [ownStep] using this

/-- Subsystems are finalised in the reverse order of their initialisation. -/
theorem C60_reverse : finis = (inits.map (fun e => match e with
    | .init x => .fini x
    | .fini x => .fini x)).reverse := by decide

theorem run_cons (s : St) (op : Op) (ops : List Op) : run s (op :: ops) = run (step s op) ops := rfl

theorem set_get {l : List Pc} {t : Nat} {p q : Pc} (h : l[t]? = some p) : (l.set t q)[t]? = some q :=
  List.getElem?_set_self (List.getElem?_eq_some_iff.1 h).1

theorem finish_unlock (s : St) (t : Nat) (ha : s.aborted = false) (hp : s.pcs[t]? = some .unlock) : (run s (List.replicate 1 (.go t false))).lock = false := by
  simp [run, step, ha, go, hp, List.replicate]

theorem finish_body (left : List Ev) : ∀ (b : Bool) (s : St) (t : Nat), s.aborted = false → s.pcs[t]? = some (.body left b) →
    (run s (List.replicate (left.length + 2) (.go t false))).lock = false := by
  induction left with
  | nil =>
    intro b s t ha hp
    rw [show ([] : List Ev).length + 2 = 1 + 1 from rfl, List.replicate_succ, run_cons]
    have e : step s (.go t false) = { s with count := if b then 1 else s.count, pcs := s.pcs.set t .unlock } := by simp [step, ha, go, hp]
    rw [e]
    exact finish_unlock _ t ha (set_get hp)
  | cons e es ih =>
    intro b s t ha hp
    rw [show (e :: es).length + 2 = (es.length + 2) + 1 from rfl, List.replicate_succ, run_cons]
    have e : step s (.go t false) = { s with log := s.log ++ [e], pcs := s.pcs.set t (.body es b) } := by simp [step, ha, go, hp]
    rw [e]
    exact ih b _ t ha (set_get hp)

theorem finish_locked (s : St) (t : Nat) (c : Call) (ha : s.aborted = false) (hp : s.pcs[t]? = some (.locked c)) :
    ∃ n ≤ 13, (run s (List.replicate n (.go t false))).lock = false := by
  by_cases h : ∃ k, step s (.go t false) = { s with count := k, pcs := s.pcs.set t .unlock }
  · obtain ⟨k, e⟩ := h
    exact ⟨2, by omega, by rw [List.replicate_succ, run_cons, e]; exact finish_unlock _ t ha (set_get hp)⟩
  · have h2 : ∃ l b k, step s (.go t false) = { s with count := k, pcs := s.pcs.set t (.body l b) } ∧ l.length = 10 := by
      cases c with
      | ctor =>
        by_cases hc : s.count > 0
        · exact absurd ⟨s.count + 1, by simp [step, ha, go, hp, hc]⟩ h
        · exact ⟨inits, true, s.count, by simp [step, ha, go, hp, hc], rfl⟩
      | dtor =>
        by_cases hc : s.count = 0
        · exact absurd ⟨s.count, by simp [step, ha, go, hp, hc]⟩ h
        · by_cases hc1 : s.count - 1 > 0
          · exact absurd ⟨s.count - 1, by simp [step, ha, go, hp, hc, hc1]⟩ h
          · refine ⟨finis, false, s.count - 1, ?_, rfl⟩
            simp only [step, ha, go, hp]
            rw [if_neg hc, if_neg hc1]; rfl
    obtain ⟨l, b, k, e, hl⟩ := h2
    refine ⟨(l.length + 2) + 1, by omega, ?_⟩
    rw [List.replicate_succ, run_cons, e]
    exact finish_body l b _ t ha (set_get hp)

/-- **C60**, progress: whenever the lock is held and the process has not been aborted, the thread that holds it releases it within 13 of its own steps, whatever the others wait
for (unless it is an AOSL thread giving up the last ownership, which aborts). -/
theorem C60_progress (threads : Nat) (ops : List Op) (h : (run (init threads) ops).aborted = false) (hl : (run (init threads) ops).lock = true) :
    ∃ t n, n ≤ 13 ∧ (run (run (init threads) ops) (List.replicate n (.go t false))).lock = false := by
  have hi := run_inv ops _ (inv_init threads)
  obtain ⟨t, p, h1, h2, h3, -⟩ := hi.held hl h
  refine ⟨t, ?_⟩
  generalize run (init threads) ops = s at *
  cases p with
  | idle => exact absurd h2 id
  | spin c => exact absurd h2 id
  | locked c => exact finish_locked s t c h h1
  | body left b =>
    refine ⟨left.length + 2, ?_, finish_body left b s t h h1⟩
    cases b with
    | true =>
      obtain ⟨cs, done, -, -, -, e, -⟩ := h3
      have := congrArg List.length e
      simp only [List.length_append] at this
      simp only [inits, List.length_cons, List.length_nil] at this; omega
    | false =>
      obtain ⟨cs, done, -, -, -, e, -⟩ := h3
      have := congrArg List.length e
      simp only [List.length_append] at this
      simp only [finis, List.length_cons, List.length_nil] at this; omega
  | unlock => exact ⟨1, by omega, finish_unlock s t h h1⟩

/-! ## C61 -/

/-- No thread is creating the main queue although the mark says so. -/
def Stuck (s : MSt) : Prop := s.main = .creating ∧ s.starting = [] ∧ s.queues = []

theorem stuck_step (s : MSt) (op : MOp) (h : Stuck s) : Stuck (mStep s op).1 ∧ ∀ t, op = .start t → (mStep s op).2 = some (-eEXIST) := by
  obtain ⟨h1, h2, h3⟩ := h
  cases op with
  | start t => simp [mStep, Stuck, h1, h2, h3]
  | create t ok => simp [mStep, Stuck, h1, h2, h3]
  | exit => simp [mStep, Stuck, h1, h2, h3]
  | ended id => simp [mStep, Stuck, h1, h2, h3]

theorem stuck_run (ops : List MOp) : ∀ s, Stuck s → ∀ (i t : Nat), ops[i]? = some (MOp.start t) → (mRun s ops).2[i]? = some (some (-eEXIST)) := by
  induction ops with
  | nil => intro s _ i t h; simp at h
  | cons op ops ih =>
    intro s hs i t h
    obtain ⟨h1, h2⟩ := stuck_step s op hs
    cases i with
    | zero =>
      simp only [List.getElem?_cons_zero, Option.some.injEq] at h
      simp only [mRun, List.getElem?_cons_zero, Option.some.injEq]
      exact h2 t h
    | succ i =>
      simp only [List.getElem?_cons_succ] at h
      simp only [mRun, List.getElem?_cons_succ]
      exact ih _ h1 i t h

/-- **C61** fails: once `aosl_main_start` has failed, every later attempt, in every continuation, fails with EEXIST. -/
theorem C61_stuck (ops : List MOp) (i t : Nat) (h : ops[i]? = some (MOp.start t)) :
    (mRun mInit ([.start 0, .create 0 false] ++ ops)).2[i + 2]? = some (some (-1017)) := by
  have hs : Stuck (mStep (mStep mInit (.start 0)).1 (.create 0 false)).1 := by
    refine ⟨?_, ?_, ?_⟩ <;> decide
  simp only [List.cons_append, List.nil_append, mRun, List.getElem?_cons_succ]
  exact stuck_run ops _ hs i t h

/-- Consistency as long as no creation fails. -/
structure MInv (s : MSt) : Prop where
  none : s.main = .none → s.starting = [] ∧ s.queues = []
  creating : s.main = .creating → (∃ t, s.starting = [t]) ∧ s.queues = []
  q : ∀ id, s.main = .q id → s.starting = [] ∧ s.queues = [id]

theorem mStep_inv (s : MSt) (op : MOp) (h : MInv s) (hok : ∀ t, op ≠ .create t false) : MInv (mStep s op).1 := by
  cases op with
  | start t =>
    simp only [mStep]
    split
    · rename_i e
      obtain ⟨h1, h2⟩ := h.none e
      exact ⟨by simp, fun _ => ⟨⟨t, by simp [h1]⟩, h2⟩, by simp⟩
    · exact h
  | create t ok =>
    simp only [mStep]
    split
    · rename_i ht
      cases ok with
      | false => exact absurd rfl (hok t)
      | true =>
        simp only [if_true]
        have hc : s.main = .creating := by
          cases hm : s.main with
          | none => rw [(h.none hm).1] at ht; cases ht
          | creating => rfl
          | q id => rw [(h.q id hm).1] at ht; cases ht
        obtain ⟨⟨t', h1⟩, h2⟩ := h.creating hc
        rw [h1] at ht ⊢
        have : t = t' := by simpa using ht
        subst this
        refine ⟨by simp, by simp, fun id e => ?_⟩
        simp only [Main.q.injEq] at e
        subst e
        exact ⟨by simp, by simp [h2]⟩
    · exact h
  | exit => simp only [mStep]; split <;> (try split) <;> exact h
  | ended id =>
    simp only [mStep]
    split
    · rename_i hid
      cases hm : s.main with
      | none => rw [(h.none hm).2] at hid; cases hid
      | creating => rw [(h.creating hm).2] at hid; cases hid
      | q id' =>
        obtain ⟨h1, h2⟩ := h.q id' hm
        rw [h2] at hid ⊢
        have : id = id' := by simpa using hid
        subst this
        rw [if_pos rfl]
        exact ⟨fun _ => ⟨h1, by simp⟩, by simp, by simp⟩
    · exact h

theorem mRun_inv (ops : List MOp) : ∀ s, MInv s → (∀ op ∈ ops, ∀ t, op ≠ .create t false) → MInv (mRun s ops).1 := by
  induction ops with
  | nil => intro s h _; exact h
  | cons op ops ih =>
    intro s h hok
    exact ih _ (mStep_inv s op h (hok op (by simp))) (fun o ho => hok o (by simp [ho]))

/-- **C61**, what holds: in every history in which no creation failed there is at most one main queue, and it is the one that `aosl_mpq_main` gives; and whenever there is none
and nobody is starting one, it can be started. -/
theorem C61_restart_partial (ops : List MOp) (hok : ∀ op ∈ ops, ∀ t, op ≠ .create t false) :
    ((mRun mInit ops).1.queues.length ≤ 1 ∧ ∀ id ∈ (mRun mInit ops).1.queues, (mRun mInit ops).1.main = .q id) ∧
    ∀ t, (mRun mInit ops).1.queues = [] → (mRun mInit ops).1.starting = [] →
      (mRun (mRun mInit ops).1 [.start t, .create t true]).2 = [none, some 0] := by
  have hi := mRun_inv ops mInit ⟨fun _ => ⟨rfl, rfl⟩, by simp [mInit], by simp [mInit]⟩ hok
  generalize (mRun mInit ops).1 = s at hi
  refine ⟨?_, ?_⟩
  · cases hm : s.main with
    | none => rw [(hi.none hm).2]; simp
    | creating => rw [(hi.creating hm).2]; simp
    | q id => rw [(hi.q id hm).2]; simp
  · intro t h1 h2
    have hm : s.main = .none := by
      cases hm : s.main with
      | none => rfl
      | creating => obtain ⟨⟨t', h3⟩, -⟩ := hi.creating hm; rw [h2] at h3; cases h3
      | q id => have := (hi.q id hm).2; rw [h1] at this; cases this
    simp [mRun, mStep, hm]

/-- The id counter is beyond all ids in use. -/
theorem fresh_run (ops : List MOp) : ∀ s, (∀ id ∈ s.queues, id < s.next) → ∀ id ∈ (mRun s ops).1.queues, id < (mRun s ops).1.next := by
  induction ops with
  | nil => intro s h; exact h
  | cons op ops ih =>
    intro s h
    refine ih _ ?_
    cases op with
    | start t => simp only [mStep]; split <;> exact h
    | create t ok =>
      simp only [mStep]
      split
      · split
        · intro id hid
          simp only [List.mem_cons] at hid
          rcases hid with rfl | hid
          · exact Nat.lt_succ_self _
          · exact Nat.lt_succ_of_lt (h id hid)
        · exact h
      · exact h
    | exit => simp only [mStep]; split <;> (try split) <;> exact h
    | ended id =>
      simp only [mStep]
      split
      · exact fun i hi => h i (List.mem_of_mem_erase hi)
      · exact h

/-- **C61**: what the calls return, in every history: a start is refused with EEXIST while a main queue is being created or exists, and otherwise goes on; a creation that fails makes it
return -1, one that succeeds 0, and then the main queue is a new one, different from all that exist; exiting succeeds while the main queue exists and fails with EINVAL otherwise. -/
theorem C61_results (ops : List MOp) (t : Nat) : let s := (mRun mInit ops).1
    (mStep s (.start t)).2 = (if s.main = .none then none else some (-1017)) ∧
    (t ∈ s.starting → (mStep s (.create t false)).2 = some (-1) ∧ (mStep s (.create t true)).2 = some 0 ∧
      ∃ id, id ∉ s.queues ∧ (mStep s (.create t true)).1.queues = id :: s.queues ∧ (mStep s (.create t true)).1.main = .q id) ∧
    (∀ id, s.main = .q id → (mStep s .exit).2 = if id ∈ s.queues then some 0 else some (-1022)) ∧
    ((∀ id, s.main ≠ .q id) → (mStep s .exit).2 = some (-1022)) := by
  intro s
  have hf := fresh_run ops mInit (by simp [mInit])
  refine ⟨?_, fun ht => ⟨?_, ?_, s.next, ?_, ?_, ?_⟩, fun id h => ?_, fun h => ?_⟩
  · simp only [mStep]; split <;> simp [*, eEXIST]
  · simp [mStep, ht]
  · simp [mStep, ht]
  · exact fun hid => Nat.lt_irrefl _ (hf _ hid)
  · simp [mStep, ht]
  · simp [mStep, ht]
  · simp only [mStep, h]; split <;> simp [eINVAL]
  · simp only [mStep]
    cases hm : s.main with
    | q id => exact absurd hm (h id)
    | none => simp [eINVAL]
    | creating => simp [eINVAL]

/-! ## Non-vacuity -/

/-- Two threads race for the first `ctor`; then three `dtor` calls. -/
def exOps : List Op := [.call 0 .ctor, .call 1 .ctor] ++ (List.replicate 20 [.go 1 false, .go 0 false]).flatten ++
  [.call 0 .dtor, .call 1 .dtor] ++ (List.replicate 20 [.go 0 false, .go 1 false]).flatten ++ [.call 0 .dtor] ++ List.replicate 9 (.go 0 false)

example : (run (init 2) exOps).log = inits ++ finis ∧ (run (init 2) exOps).order = [.ctor, .ctor, .dtor, .dtor, .dtor] ∧ (run (init 2) exOps).lock = false := by decide +kernel

/-- A state in the midst of an initialisation. -/
example : (run (init 2) ([.call 0 .ctor, .call 1 .ctor] ++ List.replicate 7 (.go 0 false))).log = inits.take 5 ∧
    (run (init 2) ([.call 0 .ctor, .call 1 .ctor] ++ List.replicate 7 (.go 0 false))).lock = true := by decide +kernel

example : (mRun mInit [.start 0, .start 1, .create 0 true, .exit, .ended 1, .start 1, .create 1 true]).2 =
  [none, some (-eEXIST), some 0, some 0, none, none, some 0] := by decide +kernel

end Verif.Lifecycle
