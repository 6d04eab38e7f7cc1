import Verif.TimerApi
/-! Properties C167 (making timers), C168 (rescheduling) and C169 (the handle of a timer made on another queue). -/
namespace Verif.TimerApi
open Verif.Timer

/-! ## C167 -/

namespace Spec

/-- What include/api/aosl_mpq_timer.h says is made. -/
def made (f : Fn) (a : Args) : Made :=
  match f with
  | .create => ⟨a.interval.toNat, .inactive⟩
  | .createOneshot => ⟨invalidInterval, .inactive⟩
  | .set => ⟨a.interval.toNat, .afterMs a.interval.toNat⟩
  | .setOneshot => ⟨invalidInterval, .atTime a.expire⟩

/-- Arguments that can be wrong. -/
def bad (f : Fn) (a : Args) : Bool :=
  a.noFunc || match f with
  | .create | .set => decide (2 ^ 63 ≤ a.interval.toNat)
  | .createOneshot => false
  | .setOneshot => decide (a.expire = 0)

/-- The answer: an error for wrong arguments, too many user arguments, no queue, no memory or handles; else the timer. -/
def answer (f : Fn) (a : Args) (q : Bool) (mk : Option Err) : Except Err Made → Prop
  | .error e => (bad f a = true ∧ (e = .einval ∨ (64 < a.argc ∧ e = .e2big))) ∨ (64 < a.argc ∧ e = .e2big) ∨ (q = false ∧ e = .einval) ∨ mk = some e
  | .ok m => bad f a = false ∧ a.argc ≤ 64 ∧ q = true ∧ mk = none ∧ m = made f a

/-- internal arguments of the calls for another queue -/
def overhead : Fn → Nat
  | .create | .createOneshot => 4
  | .set | .setOneshot => 5

end Spec

theorem neg_iff (x : BitVec 64) : x.toInt < 0 ↔ 2 ^ 63 ≤ x.toNat := by
  rw [BitVec.toInt_neg_iff]; omega

theorem small_ne {x : BitVec 64} (h : ¬ 2 ^ 63 ≤ x.toNat) : x.toNat ≠ invalidInterval := by
  intro e; rw [e] at h; exact h (by decide)

/-- C167 (current queue). The calls for the current queue do exactly what is documented. -/
theorem C167_current (f : Fn) (a : Args) (q : Bool) (mk : Option Err) : Spec.answer f a q mk (current f a q mk) := by
  obtain ⟨iv, ex, nf, argc⟩ := a
  by_cases hn : 2 ^ 63 ≤ iv.toNat
  all_goals
    have hneg := (neg_iff iv)
    by_cases hg : argc > 64
    all_goals by_cases he : ex = 0
    all_goals cases nf
    all_goals cases q
    all_goals cases mk
    all_goals cases f
    all_goals
      simp only [hn, iff_true, iff_false] at hneg
      simp [current, schedule, Spec.answer, Spec.bad, Spec.made, argcMax, hneg, hg, he, hn]
      try (have := small_ne hn; simp_all)
      try omega

/-- C167 (partial). A call for a given queue answers as the one for the current queue does, as long as the user arguments and the internal
    ones together are at most 64 and a one-shot timer is given a time other than 0.
    Missing: the same without these conditions, see below. -/
theorem C167_on_q_partial (f : Fn) (a : Args) (q : Bool) (mk : Option Err) (hargs : a.argc + Spec.overhead f ≤ 64) (he : f = .setOneshot → a.expire ≠ 0) :
    onQ f a q mk = current f a q mk := by
  obtain ⟨iv, ex, nf, argc⟩ := a
  have h1 : ¬ argc > 64 := by cases f <;> simp only [Spec.overhead] at hargs <;> omega
  have h2 : ¬ 4 + argc > 64 := by cases f <;> simp only [Spec.overhead] at hargs <;> omega
  have h3 : f = .set ∨ f = .setOneshot → ¬ 5 + argc > 64 := by
    rintro (rfl | rfl) <;> simp only [Spec.overhead] at hargs <;> omega
  have h4 : f = .setOneshot → ex ≠ 0 := he
  clear hargs he
  cases f <;> cases nf <;> cases q <;> cases mk <;> simp [onQ, current, createOnQArgs, setOnQArgs, argcMax, h1, h2] <;> simp_all [Nat.not_lt.2]

/-- non-vacuity: a timer of 100 ms with two arguments, on another queue -/
example : onQ .set ⟨100, 0, false, 2⟩ true none = .ok ⟨100, .afterMs 100⟩ ∧ (2 : Nat) + Spec.overhead .set ≤ 64 := by
  constructor
  · rfl
  · decide

/-- C167 is false of the code: between 60 (or 59) and 64 user arguments are taken on the current queue and refused on a given one, even the same. -/
theorem C167_many_args (f : Fn) (a : Args) (hgood : Spec.bad f a = false) (h1 : 64 < a.argc + Spec.overhead f) (h2 : a.argc ≤ 64) :
    current f a true none = .ok (Spec.made f a) ∧ onQ f a true none = .error .e2big := by
  constructor
  · have := C167_current f a true none
    have h3 : ¬ 64 < a.argc := by omega
    cases h : current f a true none with
    | error e => rw [h] at this; simp [Spec.answer, hgood, h3] at this
    | ok m => rw [h] at this; rw [this.2.2.2.2]
  · obtain ⟨iv, ex, nf, argc⟩ := a
    simp only at h1 h2
    have hn := neg_iff iv
    have h3 : ¬ argc > 64 := by omega
    cases nf <;> simp [Spec.bad] at hgood
    cases f <;> simp only [Spec.overhead] at h1
    all_goals
      simp only at hgood
      simp [onQ, createOnQArgs, setOnQArgs, argcMax, h3]
      try (rw [decide_eq_false_iff_not] at hgood; have h4 : ¬ iv.toInt < 0 := fun h => hgood (hn.1 h); simp [h4])
      try omega

/-- C167 is false of the code: a one-shot timer on a given queue with the time 0 is made, and is due at once, whatever the time (before the year 292 million);
    on the current queue it is refused. -/
theorem C167_zero_expiry (iv : BitVec 64) (argc : Nat) (h : argc ≤ 59) :
    current .setOneshot ⟨iv, 0, false, argc⟩ true none = .error .einval ∧
    onQ .setOneshot ⟨iv, 0, false, argc⟩ true none = .ok ⟨invalidInterval, .atTime (2 ^ 64 - 1)⟩ ∧
    ∀ now, now < 2 ^ 63 - 1 → due now (2 ^ 64 - 1) = true := by
  have h1 : ¬ argc > 64 := by omega
  have h2 : ¬ 5 + argc > 64 := by omega
  refine ⟨by simp [current, h1, argcMax], by simp [onQ, setOnQArgs, schedule, h1, h2, argcMax], fun now hn => ?_⟩
  unfold due
  rw [decide_eq_true_iff]
  simp only [sub64, two64, two63]
  omega

/-! ## C168 -/

namespace Spec

/-- one complete call on a timer with interval `iv`: the new interval -/
inductive Call where
  | periodic (i : Nat) | keep | oneshot (e : Nat)
deriving DecidableEq, Repr

def after (iv : Nat) : Call → Nat
  | .periodic i => i
  | .keep => iv
  | .oneshot e => if e = 0 then iv else invalidInterval

/-- a call begun by thread `t` and finished before the next one begins; a keep on a one-shot timer, and a one-shot time of 0, fail at once -/
def acts (iv t : Nat) : Call → List Act
  | .periodic i => [.resched t (some i), .exec t]
  | .keep => if iv ≥ two63 then [.resched t none] else [.resched t none, .exec t]
  | .oneshot e => if e = 0 then [.reschedOneshot t e] else [.reschedOneshot t e, .exec t]

def history (iv : Nat) : List (Nat × Call) → List Act
  | [] => []
  | (t, c) :: l => acts iv t c ++ history (after iv c) l

end Spec

/-- C168 (partial). Calls that do not overlap, by any threads, have their documented effect: the interval of the timer is the last one given, a
    call that says so keeps it, a one-shot time makes it a one-shot timer.
    Missing: the same for overlapping calls (`C168_keep_lost`). -/
theorem C168_sequential_partial (l : List (Nat × Spec.Call)) : ∀ (s : St), (∀ t, s.pc t = .out) → (∀ c ∈ l, ∀ i, c.2 = .periodic i → i < 2 ^ 63) →
    ∃ s', run s (Spec.history s.interval l) = some s' ∧ s'.interval = l.foldl (fun iv c => Spec.after iv c.2) s.interval ∧ ∀ t, s'.pc t = .out := by
  induction l with
  | nil => intro s h _; exact ⟨s, rfl, rfl, h⟩
  | cons c l ih =>
    intro s h hv
    obtain ⟨t, c⟩ := c
    have hrun : ∀ (a b : List Act) (s : St), run s (a ++ b) = (run s a).bind fun s' => run s' b := by
      intro a
      induction a with
      | nil => intro b s; rfl
      | cons x a iha =>
        intro b s
        simp only [List.cons_append, run]
        cases step s x with
        | none => rfl
        | some r => simp only [Option.bind_some]; exact iha b r.1
    have one : ∃ s1, run s (Spec.acts s.interval t c) = some s1 ∧ s1.interval = Spec.after s.interval c ∧ ∀ u, s1.pc u = .out := by
      cases c with
      | periodic i =>
        have := hv (t, .periodic i) (by simp) i rfl
        refine ⟨{ interval := i, pc := upd (upd s.pc t (.periodic i)) t .out }, ?_, rfl, ?_⟩
        · simp [Spec.acts, run, step, h t, upd, show i < two63 from this]
        · intro u; by_cases e : u = t <;> simp [upd, e, h]
      | keep =>
        by_cases hi : s.interval ≥ two63
        · exact ⟨s, by simp [Spec.acts, run, step, h t, hi], rfl, h⟩
        · refine ⟨{ interval := s.interval, pc := upd (upd s.pc t (.periodic s.interval)) t .out }, ?_, rfl, ?_⟩
          · simp only [Spec.acts, if_neg hi, run, step, h t, if_true, Option.bind_some, upd]
          · intro u; by_cases e : u = t <;> simp [upd, e, h]
      | oneshot e =>
        by_cases he : e = 0
        · exact ⟨s, by simp [Spec.acts, run, step, h t, he], by simp [Spec.after, he], h⟩
        · refine ⟨{ interval := invalidInterval, pc := upd (upd s.pc t (.oneshot e)) t .out }, ?_, by simp [Spec.after, he], ?_⟩
          · simp [Spec.acts, run, step, h t, he, upd]
          · intro u; by_cases e : u = t <;> simp [upd, e, h]
    obtain ⟨s1, r1, r2, r3⟩ := one
    obtain ⟨s2, q1, q2, q3⟩ := ih s1 r3 (fun c hc => hv c (by simp [hc]))
    refine ⟨s2, ?_, ?_, q3⟩
    · simp only [Spec.history]; rw [hrun, r1, ← r2]; exact q1
    · rw [List.foldl_cons, q2, r2]

/-- non-vacuity: three threads in turn -/
example : ∃ s', run ⟨100, fun _ => .out⟩ (Spec.history 100 [(1, .keep), (2, .periodic 50), (3, .keep), (1, .oneshot 7), (2, .keep)]) = some s' ∧
    s'.interval = invalidInterval := by
  obtain ⟨s', h1, h2, -⟩ := C168_sequential_partial [(1, .keep), (2, .periodic 50), (3, .keep), (1, .oneshot 7), (2, .keep)] ⟨100, fun _ => .out⟩ (fun _ => rfl)
    (by intro c hc i hi; simp at hc; rcases hc with rfl | rfl | rfl | rfl | rfl <;> simp at hi; omega)
  exact ⟨s', h1, h2⟩

/-- C168 is false of the code: a call that keeps the interval overlapping one that sets it to `i` puts the old one back, although the second call was
    made and finished in between. -/
theorem C168_keep_lost (old i t u : Nat) (htu : t ≠ u) (ho : old < 2 ^ 63) (hi : i < 2 ^ 63) :
    ∃ s', run ⟨old, fun _ => .out⟩ [.resched t none, .resched u (some i), .exec u, .exec t] = some s' ∧ s'.interval = old := by
  have h1 : ¬ old ≥ two63 := by simp only [two63]; omega
  have h2 : i < two63 := hi
  refine ⟨⟨old, upd (upd (upd (upd (fun _ => .out) t (.periodic old)) u (.periodic i)) u .out) t .out⟩, ?_, rfl⟩
  simp only [run, step, if_true, if_neg h1, Option.bind_some, upd, htu.symm, h2, if_false, htu]

/-- … and a one-shot timer made so in between becomes periodic again. -/
theorem C168_oneshot_lost (old e t u : Nat) (htu : t ≠ u) (ho : old < 2 ^ 63) (he : e ≠ 0) :
    ∃ s', run ⟨old, fun _ => .out⟩ [.resched t none, .reschedOneshot u e, .exec u, .exec t] = some s' ∧ s'.interval = old ∧ old ≠ invalidInterval := by
  have h1 : ¬ old ≥ two63 := by simp only [two63]; omega
  refine ⟨⟨old, upd (upd (upd (upd (fun _ => .out) t (.periodic old)) u (.oneshot e)) u .out) t .out⟩, ?_, rfl, ?_⟩
  · simp only [run, step, if_true, if_neg h1, Option.bind_some, upd, htu.symm, he, if_false, htu]
  · intro h; rw [h] at ho; exact absurd ho (by decide)

/-! ## C169 -/

/-- C169 (partial). As long as the timer's queue does not end, and its callback does not kill it, before the making call has returned, the call reads the handle
    of an existing timer; a timer that is made inactive has no callback before.
    Missing: the same for a callback that kills its timer (`C169_uaf`), and for a queue that ends (`C169_end`). -/
theorem C169_partial (l : List Ev) (s : Tm) (h : Tm.init.run l = some s)
    (hq : ∀ (l1 l2 : List Ev), l = l1 ++ .endQ :: l2 → .read ∈ l1)
    (hk : .make true ∈ l → ∀ (l1 l2 : List Ev), l = l1 ++ .fireKill :: l2 → .read ∈ l1) : s.uaf = false := by
  have key : ∀ (l2 l1 : List Ev) (s : Tm), l = l1 ++ l2 → Tm.init.run l1 = some s →
      (s.uaf = false ∧ (s.maker = .called → s.mem = true) ∧ (s.maker ≠ .returned → .read ∉ l1) ∧ (s.active = true → .make true ∈ l1)) →
      ∀ s', s.run l2 = some s' → s'.uaf = false := by
    intro l2
    induction l2 with
    | nil => intro l1 s _ _ hI s' hr; cases hr; exact hI.1
    | cons e l2 ih =>
      intro l1 s hl hs hI s' hr
      have hrun : ∀ (a b : List Ev) (s : Tm), s.run (a ++ b) = (s.run a).bind fun s' => s'.run b := by
        intro a
        induction a with
        | nil => intro b s; rfl
        | cons x a iha =>
          intro b s
          simp only [List.cons_append, Tm.run]
          cases s.step x with
          | none => rfl
          | some r => simp only [Option.bind_some]; exact iha b r
      simp only [Tm.run] at hr
      cases hst : s.step e with
      | none => simp [hst] at hr
      | some s1 =>
        simp only [hst, Option.bind_some] at hr
        refine ih (l1 ++ [e]) s1 (by simp [hl]) (by rw [hrun, hs]; simp [Tm.run, hst]) ?_ s' hr
        obtain ⟨i1, i2, i3, i4⟩ := hI
        cases e with
        | make sched =>
          simp only [Tm.step] at hst
          split at hst <;> cases hst
          rename_i hc
          refine ⟨i1, fun _ => rfl, fun _ => ?_, fun ha => ?_⟩
          · simp; exact i3 (by rw [hc.1]; simp)
          · simp only at ha; subst ha; simp
        | fireKill =>
          simp only [Tm.step] at hst
          split at hst <;> cases hst
          rename_i hc
          have hread := hk (by rw [hl]; simp [i4 hc.2.1]) l1 l2 hl
          have hm : s.maker = .returned := Classical.byContradiction fun hne => i3 hne hread
          refine ⟨i1, fun h => ?_, fun h => absurd hm h, fun h => by cases h⟩
          simp only at h; rw [hm] at h; cases h
        | endQ =>
          simp only [Tm.step] at hst
          split at hst <;> cases hst
          have hread := hq l1 l2 hl
          have hm : s.maker = .returned := Classical.byContradiction fun hne => i3 hne hread
          refine ⟨i1, fun h => ?_, fun h => absurd hm h, fun h => by cases h⟩
          simp only at h; rw [hm] at h; cases h
        | read =>
          simp only [Tm.step] at hst
          split at hst <;> cases hst
          rename_i hc
          refine ⟨by simp [i1, i2 hc], (fun h => by cases h), (fun h => absurd rfl h), fun h => ?_⟩
          simp only at h
          simp [i4 h]
  exact key l [] Tm.init rfl rfl ⟨rfl, (by intro h; cases h), (by simp), (by intro h; cases h)⟩ s h

/-- non-vacuity: a scheduled timer, read, fired and killed, before its queue ends -/
example : (Tm.init.run [.make true, .read, .fireKill, .endQ]).isSome = true := rfl

/-- C169 is false of the code: a timer set on another queue that fires at once and kills itself in its callback is freed before the call that made it
    reads its handle. -/
theorem C169_uaf : ∃ s, Tm.init.run [.make true, .fireKill, .read] = some s ∧ s.uaf = true ∧ s.maker = .returned := ⟨_, rfl, rfl, rfl⟩

/-- … and so is every timer of a queue that ends in the meantime. -/
theorem C169_end (sched : Bool) : ∃ s, Tm.init.run [.make sched, .endQ, .read] = some s ∧ s.uaf = true ∧ s.maker = .returned := by
  refine ⟨⟨.returned, false, false, true, true⟩, ?_, rfl, rfl⟩
  simp [Tm.run, Tm.step, Tm.init]

end Verif.TimerApi
