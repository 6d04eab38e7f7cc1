import Verif.NetSub

/-! Property C158: the subscription to network events ends with its queue. -/
namespace Verif.NetSub

/-! ## Specification

What a user is entitled to expect of a history of successful calls: the subscriber is the queue that subscribed last, as
long as it neither unsubscribed nor ended and the library was not shut down. -/
namespace Spec

/-- the subscriber after one more event, given the result the call had -/
def next (a : Option Nat) (o : Op) (r : Res) : Option Nat :=
  match o, r with
  | .subscribe q _ _ _, .ok => some q
  | .unsubscribe _, .ok => none
  | .finish q, .ok => if a = some q then none else a
  | .dtor, _ => none
  | _, _ => a

/-- is the library up after the events (the reference count of C60 is left out), and is queue `q` running? -/
def up : Bool → List Op → Bool
  | b, [] => b
  | _, .ctor :: os => up true os
  | _, .dtor :: os => up false os
  | b, _ :: os => up b os

def runs (q : Nat) : Bool → Bool → List Op → Bool
  | _, r, [] => r
  | _, r, .ctor :: os => runs q true r os
  | _, _, .dtor :: os => runs q false false os
  | u, r, .create q' :: os => runs q u (if q' = q then r || u else r) os
  | u, r, .finish q' :: os => runs q u (if q' = q then r && !u else r) os
  | u, r, _ :: os => runs q u r os

end Spec

/-- model and specification side by side -/
def both : St × Option Nat → List Op → St × Option Nat
  | p, [] => p
  | (s, a), o :: os => both ((step s o).1, Spec.next a o (step s o).2) os

/-- the user's discipline under which the code is right: the subscribed queue unsubscribes before it ends and before the
    library is shut down -/
def Disciplined : St × Option Nat → List Op → Prop
  | _, [] => True
  | (s, a), o :: os => (o = .dtor → a = none) ∧ (∀ q, o = .finish q → a ≠ some q) ∧
      Disciplined ((step s o).1, Spec.next a o (step s o).2) os

instance : (p : St × Option Nat) → (os : List Op) → Decidable (Disciplined p os)
  | _, [] => isTrue trivial
  | (s, a), o :: os =>
    have : Decidable (Disciplined ((step s o).1, Spec.next a o (step s o).2) os) := instDecidableDisciplined _ os
    have : Decidable (∀ q, o = .finish q → a ≠ some q) :=
      match o with
      | .finish q => if h : a = some q then isFalse (fun f => f q rfl h) else isTrue (fun _ e => by cases e; exact h)
      | .ctor | .dtor | .create _ | .subscribe .. | .unsubscribe _ | .link | .opens _ | .closes _ =>
        isTrue (fun _ e => by cases e)
    by unfold Disciplined; infer_instance

/-- model and specification agree, and nothing is lost -/
structure Inv (l : Nat) (f : List Nat) (s : St) (a : Option Nat) : Prop where
  sub : s.sub = a
  fdNone : a = none → s.af = none ∧ s.cached = 0 ∧ ∀ fd q, s.file fd ≠ some (.monitor q)
  fdSome : ∀ q, a = some q → ∃ fd, s.af = some fd ∧ s.file fd = some (.monitor q) ∧
    (∀ fd' q', s.file fd' = some (.monitor q') → fd' = fd) ∧ s.live q = true ∧ s.up = true
  down : s.up = false → ∀ q, s.live q = false
  lost : s.lost = l
  foreign : s.foreign = f

theorem inv_init : Inv 0 [] St.init none := by
  constructor <;> simp [St.init]

set_option maxHeartbeats 1000000 in
theorem inv_step (l : Nat) (f : List Nat) (s : St) (a : Option Nat) (h : Inv l f s a) (o : Op)
    (hd : o = .dtor → a = none) (hf : ∀ q, o = .finish q → a ≠ some q) :
    Inv l f (step s o).1 (Spec.next a o (step s o).2) := by
  obtain ⟨h1, h2, h3, h4, h5, h6⟩ := h
  subst h1
  cases o with
  | ctor =>
    simp only [step]; split
    · exact ⟨rfl, h2, h3, h4, h5, h6⟩
    · rename_i hu
      have hs : s.sub = none := by
        cases hq : s.sub with
        | none => rfl
        | some q => obtain ⟨fd, _, _, _, _, h⟩ := h3 q hq; exact absurd h hu
      refine ⟨rfl, ?_, ?_, ?_, ?_, h6⟩ <;> simp [Spec.next, hs, h5, (h2 hs).2.1, (h2 hs).1, (h2 hs).2.2]
  | dtor =>
    have hs := hd rfl
    obtain ⟨a1, a2, a3⟩ := h2 hs
    simp only [step]; split
    · refine ⟨hs, ?_, by simp [Spec.next], by simp, by simp [h5, a2], h6⟩
      intro _
      refine ⟨a1, rfl, ?_⟩
      intro fd q; simp only [dropMonitors]; split <;> simp
    · exact ⟨hs, fun _ => h2 hs, by simp [Spec.next], h4, h5, h6⟩
  | create q =>
    simp only [step]; split
    · rename_i hc
      refine ⟨rfl, h2, ?_, ?_, h5, h6⟩
      · intro q' hq'; obtain ⟨fd, b1, b2, b3, b4, b5⟩ := h3 q' hq'
        exact ⟨fd, b1, b2, b3, by simp only [set]; split <;> simp_all, b5⟩
      · simp [hc.1]
    · exact ⟨rfl, h2, h3, h4, h5, h6⟩
  | finish q =>
    have hq := hf q rfl
    simp only [step]; split
    · rename_i hc
      refine ⟨by simp [Spec.next, hq], ?_, ?_, ?_, h5, h6⟩
      · simp only [Spec.next, hq, if_false]
        intro hs; obtain ⟨a1, a2, a3⟩ := h2 hs
        refine ⟨a1, a2, ?_⟩
        intro fd q'; split
        · simp
        · exact a3 fd q'
      · simp only [Spec.next, hq, if_false]
        intro q' hq'; obtain ⟨fd, b1, b2, b3, b4, b5⟩ := h3 q' hq'
        have hne : q' ≠ q := fun e => hq (e ▸ hq')
        refine ⟨fd, b1, by simp [b2, hne], ?_, by simp [set, hne, b4], b5⟩
        intro fd' q''; split
        · simp
        · exact b3 fd' q''
      · simp [hc.1]
    · simp only [Spec.next]; exact ⟨rfl, h2, h3, h4, h5, h6⟩
  | subscribe q fd osOk n =>
    simp only [step]; split
    · rename_i hc
      split
      · exact ⟨rfl, h2, h3, h4, h5, h6⟩
      · rename_i hs; simp only [ne_eq, Classical.not_not] at hs
        obtain ⟨a1, a2, a3⟩ := h2 hs
        split
        · rename_i hfd
          refine ⟨rfl, by simp [Spec.next], ?_, by simp [hc.1], h5, h6⟩
          simp only [Spec.next, Option.some.injEq]
          intro q' hq'; subst hq'
          refine ⟨fd, rfl, by simp [set], ?_, hc.2, hc.1⟩
          intro fd' q'; simp only [set]; split
          · simp [*]
          · intro h; exact absurd h (a3 _ _)
        · exact ⟨rfl, h2, h3, h4, h5, h6⟩
    · exact ⟨rfl, h2, h3, h4, h5, h6⟩
  | unsubscribe q =>
    simp only [step]; split
    · rename_i hc
      split
      · exact ⟨rfl, h2, h3, h4, h5, h6⟩
      · rename_i hs; simp only [ne_eq, Classical.not_not] at hs
        obtain ⟨fd, b1, b2, b3, b4, b5⟩ := h3 q hs
        have he : osUnsubscribe s = { s with af := none, file := set s.file fd none } := by
          simp [osUnsubscribe, b1, b2]
        rw [he]
        refine ⟨rfl, ?_, by simp [Spec.next], h4, h5, h6⟩
        intro _; refine ⟨rfl, rfl, ?_⟩
        intro fd' q'; simp only [set]; split
        · simp
        · intro h; exact absurd (b3 _ _ h) (by assumption)
    · exact ⟨rfl, h2, h3, h4, h5, h6⟩
  | link =>
    simp only [step]
    split
    · rename_i q fd hs haf
      split
      · refine ⟨rfl, ?_, h3, h4, h5, h6⟩
        simp [Spec.next, hs]
      · exact ⟨rfl, h2, h3, h4, h5, h6⟩
    · exact ⟨rfl, h2, h3, h4, h5, h6⟩
  | opens fd =>
    simp only [step]; split
    · rename_i hc
      refine ⟨rfl, ?_, ?_, h4, h5, h6⟩
      · intro hs; obtain ⟨a1, a2, a3⟩ := h2 hs
        refine ⟨a1, a2, ?_⟩
        intro fd' q'; simp only [set]; split
        · simp
        · exact a3 _ _
      · intro q' hq'; obtain ⟨fd', b1, b2, b3, b4, b5⟩ := h3 q' hq'
        refine ⟨fd', b1, ?_, ?_, b4, b5⟩
        · simp only [set]; split
          · subst_vars; simp_all
          · exact b2
        · intro x y; simp only [set]; split
          · simp
          · exact b3 x y
    · exact ⟨rfl, h2, h3, h4, h5, h6⟩
  | closes fd =>
    simp only [step]; split
    · rename_i hc
      refine ⟨rfl, ?_, ?_, h4, h5, h6⟩
      · intro hs; obtain ⟨a1, a2, a3⟩ := h2 hs
        refine ⟨a1, a2, ?_⟩
        intro fd' q'; simp only [set]; split
        · simp
        · exact a3 _ _
      · intro q' hq'; obtain ⟨fd', b1, b2, b3, b4, b5⟩ := h3 q' hq'
        refine ⟨fd', b1, ?_, ?_, b4, b5⟩
        · simp only [set]; split
          · subst_vars; simp_all
          · exact b2
        · intro x y; simp only [set]; split
          · simp
          · exact b3 x y
    · exact ⟨rfl, h2, h3, h4, h5, h6⟩

theorem inv_both (l : Nat) (f : List Nat) (os : List Op) : ∀ s a, Inv l f s a → Disciplined (s, a) os → Inv l f (both (s, a) os).1 (both (s, a) os).2 := by
  induction os with
  | nil => intro s a h _; exact h
  | cons o os ih =>
    intro s a h hd
    obtain ⟨d1, d2, d3⟩ := hd
    exact ih _ _ (inv_step l f s a h o d1 d2) d3

theorem both_fst (os : List Op) : ∀ s a, (both (s, a) os).1 = run s os := by
  induction os with
  | nil => intros; rfl
  | cons o os ih => intro s a; exact ih _ _

/-! ## C158 -/

/-- What the calls do in a state `s` in which the specification has subscriber `a`. -/
def Exact (s : St) (a : Option Nat) : Prop :=
  (∀ q fd n, s.up = true → s.live q = true → s.file fd = none →
    ((step s (.subscribe q fd true n)).2 = .ok ↔ a = none) ∧ ((step s (.subscribe q fd true n)).2 = .eexist ↔ a ≠ none)) ∧
  (∀ q fd n, s.up = true → s.live q = true → a = none → step s (.subscribe q fd false n) = (s, .eos)) ∧
  (∀ q, s.up = true → s.live q = true →
    ((step s (.unsubscribe q)).2 = .ok ↔ a = some q) ∧ ((step s (.unsubscribe q)).2 = .eperm ↔ a ≠ some q)) ∧
  (∀ q fd ok n, s.up = false ∨ s.live q = false → step s (.subscribe q fd ok n) = (s, .skip) ∧ step s (.unsubscribe q) = (s, .skip)) ∧
  (∀ q, a = some q → s.up = true ∧ s.live q = true ∧ ∃ fd, s.file fd = some (.monitor q) ∧ ∀ fd' q', s.file fd' = some (.monitor q') → fd' = fd) ∧
  (a = none → s.cached = 0 ∧ ∀ fd q, s.file fd ≠ some (.monitor q))

theorem exact_of_inv {l : Nat} {f : List Nat} {s : St} {a : Option Nat} (h : Inv l f s a) : Exact s a := by
  refine ⟨?_, ?_, ?_, ?_, ?_, fun ha => (h.fdNone ha).2⟩
  · intro q fd n hu hl hf
    simp only [step, hu, hl, hf, h.sub]
    by_cases ha : a = none <;> simp [ha]
  · intro q fd n hu hl ha
    simp [step, hu, hl, h.sub, ha]
  · intro q hu hl
    simp only [step, hu, hl, h.sub]
    by_cases ha : a = some q <;> simp [ha]
  · intro q fd ok n hd
    constructor <;> rcases hd with hd | hd <;> simp [step, hd]
  · intro q ha
    obtain ⟨fd, _, b2, b3, b4, b5⟩ := h.fdSome q ha
    exact ⟨b5, b4, fd, b2, b3⟩

/-- C158 (what holds). In every history in which the subscribed queue unsubscribes before it ends and before the library is
    shut down: a running queue can subscribe exactly when there is no subscriber (and the system lets it), a queue can
    unsubscribe exactly when it is the subscriber, while subscribed there is exactly one monitoring socket, without a subscriber there is
    none and no interface record is kept, no record is ever lost and no descriptor of anybody else is ever closed.
    Missing: the same without the assumption; it is false of the code (`C158_stuck`, `C158_lost`, `C158_foreign`). -/
theorem C158_disciplined_partial (os : List Op) (hd : Disciplined (St.init, none) os) :
    Exact (run St.init os) (both (St.init, none) os).2 ∧ (run St.init os).lost = 0 ∧ (run St.init os).foreign = [] := by
  have h := inv_both 0 [] os _ _ inv_init hd
  rw [both_fst] at h
  exact ⟨exact_of_inv h, h.lost, h.foreign⟩

/-- non-vacuity: a library is started, a queue subscribes, unsubscribes and ends, another one subscribes, unsubscribes and the library is
    shut down and started again -/
example : Disciplined (St.init, none)
    [.ctor, .create 1, .create 2, .subscribe 1 5 true 2, .link, .unsubscribe 1, .finish 1, .opens 5, .subscribe 2 6 true 3, .unsubscribe 2,
     .dtor, .ctor, .create 3, .subscribe 3 7 true 1] := by decide +kernel

/-- what is true after every history -/
structure WInv (s : St) : Prop where
  mon : ∀ fd q, s.file fd = some (.monitor q) → s.sub = some q ∧ s.af = some fd
  none : s.sub = none → s.af = none ∧ s.cached = 0
  down : s.up = false → ∀ q, s.live q = false

set_option maxHeartbeats 1000000 in
theorem winv_step (s : St) (h : WInv s) (o : Op) : WInv (step s o).1 := by
  obtain ⟨h1, h2, h3⟩ := h
  cases o <;> simp only [step, osUnsubscribe]
  all_goals repeat' split
  all_goals constructor <;> simp only [set, dropMonitors] <;> grind

theorem winv_run (os : List Op) : ∀ s, WInv s → WInv (run s os) := by
  induction os with
  | nil => intro s h; exact h
  | cons o os ih => intro s h; exact ih _ (winv_step s h o)

theorem winv_init : WInv St.init := by constructor <;> simp [St.init]

theorem up_run (os : List Op) : ∀ s, (run s os).up = Spec.up s.up os := by
  induction os with
  | nil => intro s; rfl
  | cons o os ih =>
    intro s
    show (run (step s o).1 os).up = _
    rw [ih]
    cases o <;> simp only [step, Spec.up, osUnsubscribe] <;> (repeat' split) <;> simp_all

theorem live_run (q : Nat) (os : List Op) : ∀ s, WInv s → (run s os).live q = Spec.runs q s.up (s.live q) os := by
  induction os with
  | nil => intro s _; rfl
  | cons o os ih =>
    intro s hw
    show (run (step s o).1 os).live q = _
    rw [ih _ (winv_step s hw o)]
    have hd := hw.down
    have : Spec.runs q (step s o).1.up ((step s o).1.live q) os = Spec.runs q s.up (s.live q) (o :: os) := by
      cases o <;> simp only [step, Spec.runs, osUnsubscribe] <;> (repeat' split) <;> first | rfl | (congr 1 <;> grind [set]) | grind [set]
    exact this

/-- C158: the library is up and a queue runs exactly when the history says so (the conditions in `Exact` mean what they say). -/
theorem C158_running (os : List Op) (q : Nat) :
    (run St.init os).up = Spec.up false os ∧ (run St.init os).live q = Spec.runs q false false os :=
  ⟨up_run os _, live_run q os _ winv_init⟩

example : Spec.up false [.ctor, .create 1, .dtor, .ctor, .create 2] = true ∧
    Spec.runs 1 false false [.ctor, .create 1, .dtor, .ctor, .create 2] = false ∧
    Spec.runs 2 false false [.ctor, .create 1, .dtor, .ctor, .create 2] = true := by decide

/-- C158: how to recover. After every history whatsoever, once a call to unsubscribe succeeds, the subscription behaves as
    specified again, for every disciplined continuation, and from then on nothing more is lost or closed. -/
theorem C158_recover (os os' : List Op) (q : Nat) (hok : (step (run St.init os) (.unsubscribe q)).2 = .ok) :
    let s := (step (run St.init os) (.unsubscribe q)).1
    Disciplined (s, none) os' →
    Exact (run s os') (both (s, none) os').2 ∧ (run s os').lost = (run St.init os).lost ∧ (run s os').foreign = s.foreign := by
  intro s hd
  have hw := winv_run os _ winv_init
  have hw' : WInv s := winv_step _ hw _
  have hs : s.sub = none ∧ s.lost = (run St.init os).lost := by
    show (step (run St.init os) (.unsubscribe q)).1.sub = none ∧ (step (run St.init os) (.unsubscribe q)).1.lost = _
    simp only [step] at hok ⊢
    split at hok
    · split at hok
      · cases hok
      · rename_i h1 h2
        rw [if_pos h1, if_neg h2]
        refine ⟨rfl, ?_⟩
        simp only [osUnsubscribe]
        repeat' split
        all_goals rfl
    · cases hok
  have hi : Inv (run St.init os).lost s.foreign s none := by
    refine ⟨hs.1, fun _ => ⟨(hw'.none hs.1).1, (hw'.none hs.1).2, ?_⟩, by simp, hw'.down, hs.2, rfl⟩
    intro fd q' he
    have := (hw'.mon fd q' he).1
    rw [hs.1] at this; cases this
  have h := inv_both _ _ os' _ _ hi hd
  rw [both_fst] at h
  exact ⟨exact_of_inv h, h.lost, h.foreign⟩

/-- an undisciplined history, then a queue with the same handle unsubscribes, and then all is well -/
example : let os : List Op := [.ctor, .create 1, .subscribe 1 5 true 2, .finish 1, .create 1]
    (step (run St.init os) (.unsubscribe 1)).2 = .ok ∧
    Disciplined ((step (run St.init os) (.unsubscribe 1)).1, none) [.subscribe 1 6 true 1, .link, .unsubscribe 1, .finish 1, .dtor] := by
  decide +kernel

theorem stuck_step (q : Nat) (s : St) (o : Op) (h : s.sub = some q ∧ s.live q = false) (hc : o ≠ .create q) :
    (step s o).1.sub = some q ∧ (step s o).1.live q = false := by
  obtain ⟨h1, h2⟩ := h
  cases o with
  | create q' =>
    have : q ≠ q' := fun e => hc (e ▸ rfl)
    simp only [step]; split <;> simp [set, this, h1, h2]
  | finish q' => simp only [step]; split <;> simp [set, h1, h2]
  | subscribe q' fd ok n =>
    simp only [step]
    repeat' split
    all_goals simp_all
  | unsubscribe q' =>
    simp only [step, h1]
    repeat' split
    all_goals simp_all
  | link => simp only [step]; repeat' split
            all_goals simp_all
  | ctor => simp only [step]; split <;> simp [h1, h2]
  | dtor => simp only [step]; split <;> simp [h1, h2]
  | opens fd => simp only [step]; split <;> simp [h1, h2]
  | closes fd => simp only [step]; split <;> simp [h1, h2]

theorem stuck_run (q : Nat) (os : List Op) : ∀ s, (s.sub = some q ∧ s.live q = false) → Op.create q ∉ os →
    (run s os).sub = some q ∧ (run s os).live q = false := by
  induction os with
  | nil => intro s h _; exact h
  | cons o os ih =>
    intro s h hc
    simp only [List.mem_cons, not_or] at hc
    exact ih _ (stuck_step q s o h (fun e => hc.1 e.symm)) hc.2

/-- C158 is false of the code. When the subscribed queue ends (or the library is shut down) without having unsubscribed, then in
    every further history, including any number of shutdowns and restarts of the library, no queue can subscribe (EEXIST) and
    no queue can unsubscribe (EPERM), until a queue is given the very same handle. -/
theorem C158_stuck (os : List Op) (q : Nat) (hs : (run St.init os).sub = some q) (e : Op) (he : e = .finish q ∨ e = .dtor)
    (hu : (run St.init os).up = true) (os' : List Op) (hc : Op.create q ∉ os') :
    let s := run (step (run St.init os) e).1 os'
    (∀ q' fd ok n, (step s (.subscribe q' fd ok n)).2 ≠ .ok) ∧
    (∀ q', (step s (.unsubscribe q')).2 ≠ .ok) ∧
    (∀ q' fd ok n, s.up = true → s.live q' = true → (step s (.subscribe q' fd ok n)).2 = .eexist) ∧
    (∀ q', s.up = true → s.live q' = true → (step s (.unsubscribe q')).2 = .eperm) := by
  intro s
  have h0 : (step (run St.init os) e).1.sub = some q ∧ (step (run St.init os) e).1.live q = false := by
    rcases he with rfl | rfl
    · simp only [step]; split
      · simp [hs, set]
      · rename_i hn; refine ⟨hs, ?_⟩
        cases hl : (run St.init os).live q
        · rfl
        · exact absurd ⟨hu, hl⟩ hn
    · simp [step, hu, hs]
  obtain ⟨h1, h2⟩ := stuck_run q os' _ h0 hc
  change s.sub = some q at h1
  change s.live q = false at h2
  have hne : ∀ q', s.live q' = true → q ≠ q' := fun q' h e => by rw [e, h] at h2; cases h2
  refine ⟨?_, ?_, ?_, ?_⟩
  · intro q' fd ok n
    simp only [step, h1]; split <;> simp
  · intro q'
    simp only [step, h1]; split
    · rename_i hc; simp [hne q' hc.2]
    · simp
  · intro q' fd ok n hu hl; simp [step, h1, hu, hl]
  · intro q' hu hl; simp [step, h1, hu, hl, hne q' hl]

/-- such a history: the subscriber's queue is destroyed, the library is shut down and started again; the only queue of the new
    life can neither subscribe nor unsubscribe -/
example : let os : List Op := [.ctor, .create 1, .subscribe 1 5 true 2]
    (run St.init os).sub = some 1 ∧ (run St.init os).up = true ∧
    let s := run (step (run St.init os) (.finish 1)).1 [.dtor, .ctor, .create 2]
    (step s (.subscribe 2 5 true 2)).2 = .eexist ∧ (step s (.unsubscribe 2)).2 = .eperm := by decide +kernel

theorem run_append (xs ys : List Op) : ∀ s, run s (xs ++ ys) = run (run s xs) ys := by
  induction xs with
  | nil => intro s; rfl
  | cons x xs ih => intro s; exact ih _

/-- C158 is false of the code: the interface records in the table when the library is shut down are lost (the table is
    emptied without freeing the records, route.c:449), here for `n` interfaces found at subscription and `k` more reported later. -/
theorem C158_lost (n k : Nat) : (run St.init ([.ctor, .create 1, .subscribe 1 5 true n] ++ List.replicate k .link ++ [.finish 1, .dtor])).lost = n + k := by
  rw [run_append, run_append]
  have : ∀ k s, s.sub = some 1 → s.af = some 5 → s.file 5 = some (.monitor 1) →
      run s (List.replicate k .link) = { s with cached := s.cached + k } := by
    intro k; induction k with
    | zero => intros; rfl
    | succ k ih =>
      intro s h1 h2 h3
      simp only [List.replicate_succ, run]
      have hstep : (step s .link).1 = { s with cached := s.cached + 1 } := by simp [step, h1, h2, h3]
      rw [hstep, ih { s with cached := s.cached + 1 } h1 h2 h3]
      simp only [Nat.add_assoc, Nat.add_comm 1 k]
  rw [this k _ rfl rfl (by simp [run, step, St.init, set])]
  simp [run, step, St.init, set]

/-- C158 is false of the code: the number of the monitoring socket stays remembered after the socket was closed with its
    queue; when a later queue gets the same handle and unsubscribes, whatever has that number then is closed. -/
theorem C158_foreign (q fd n : Nat) :
    let s := run St.init [.ctor, .create q, .subscribe q fd true n, .finish q, .opens fd, .create q]
    s.file fd = some .other ∧ (step s (.unsubscribe q)).2 = .ok ∧ (step s (.unsubscribe q)).1.file fd = none ∧
      (step s (.unsubscribe q)).1.foreign = [fd] := by
  simp [run, step, St.init, set, osUnsubscribe]

/-- A subscription the operating system refuses, and one while there is a subscriber, change nothing and say so; one it grants to a running queue while
    there is no subscriber succeeds. -/
theorem C158_grant (s : St) (q fd n : Nat) (osOk : Bool) (hu : s.up = true) (hl : s.live q = true) (hf : s.file fd = none) :
    (s.sub ≠ none → step s (.subscribe q fd osOk n) = (s, .eexist)) ∧
    (s.sub = none → osOk = false → step s (.subscribe q fd osOk n) = (s, .eos)) ∧
    (s.sub = none → osOk = true → (step s (.subscribe q fd osOk n)).2 = .ok ∧ (step s (.subscribe q fd osOk n)).1.sub = some q) := by
  refine ⟨fun h => ?_, fun h h' => ?_, fun h h' => ?_⟩ <;> simp [step, hu, hl, hf, h, *]

end Verif.NetSub
