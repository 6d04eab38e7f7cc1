import Verif.PortCond
/-!
C229: Waiting for a condition ends once it was made true.
-/
namespace Verif.PortCond

/-! ## The specification -/

/-- The thread has the lock, going by where it is: from the return of lock or wait to the call of unlock or wait. -/
def holdsW (p : WPc) : Bool := p == .chk || p == .unl
def holdsS (p : SPc) : Bool := p == .set || p == .bc || p == .unl

def holds (s : St) : Who → Bool
  | .setter => holdsS s.sp
  | .w i => holdsW (s.pc i)

def allDone (n : Nat) (s : St) : Prop := s.sp = .done ∧ ∀ i, i < n → s.pc i = .done

def spuriousIn (es : List Ev) : Nat := es.countP fun | .spurious _ => true | _ => false

def isSpurious : Ev → Bool
  | .spurious _ => true
  | _ => false

/-! ## Invariants -/

structure Inv (s : St) : Prop where
  own : ∀ w, s.owner = some w ↔ holds s w = true
  flag : s.flag = true ↔ s.sp = .bc ∨ s.sp = .unl ∨ s.sp = .done
  seen : ∀ i, s.pc i = .unl ∨ s.pc i = .done → s.flag = true
  slept : ∀ i, s.pc i = .asleep → s.cond = true ∧ s.sp ≠ .unl ∧ s.sp ≠ .done

theorem inv_init (c : Bool) : Inv (St.init c) := by
  refine ⟨fun w => ?_, ?_, fun i h => ?_, fun i h => ?_⟩
  · cases w <;> simp [St.init, holds, holdsW, holdsS]
  · simp [St.init]
  · simp [St.init] at h
  · simp [St.init] at h

theorem inv_step (n : Nat) (s t : St) (e : Ev) (h : Inv s) (hs : step n s e = some t) : Inv t := by
  have ow := h.own
  have hwn : s.owner = none → (∀ i, holdsW (s.pc i) = false) ∧ holdsS s.sp = false := by
    intro hn
    refine ⟨fun i => ?_, ?_⟩
    · have := ow (.w i); rw [hn] at this; simpa [holds] using this
    · have := ow .setter; rw [hn] at this; simpa [holds] using this
  have hme : ∀ w, holds s w = true → ∀ v, holds s v = true → v = w := by
    intro w hw v hv
    have a := (ow w).2 hw
    have b := (ow v).2 hv
    rw [a] at b
    exact (Option.some.inj b).symm
  cases e <;> simp only [step] at hs <;> split at hs <;> cases hs <;> rename_i hc
  case lock i =>
    obtain ⟨_, hp, hn⟩ := hc
    obtain ⟨h1, h2⟩ := hwn hn
    refine ⟨fun w => ?_, h.flag, fun j hj => ?_, fun j hj => ?_⟩
    · cases w with
      | setter => simp [holds, h2]
      | w j =>
        simp only [holds, upd]
        by_cases hji : j = i
        · simp [hji, holdsW]
        · simp [hji, h1, Ne.symm hji]
    · simp only [upd] at hj; split at hj <;> simp_all [h.seen j]
    · simp only [upd] at hj; split at hj <;> simp_all [h.slept j]
  case sleep i =>
    obtain ⟨_, hp, hf, hcd⟩ := hc
    have hh : holds s (.w i) = true := by simp [holds, hp, holdsW]
    refine ⟨fun w => ?_, h.flag, fun j hj => ?_, fun j hj => ?_⟩
    · constructor
      · intro hx; simp at hx
      · intro hx
        exfalso
        cases w with
        | setter => have := hme _ hh .setter (by simpa [holds] using hx); cases this
        | w j =>
          simp only [holds, upd] at hx
          by_cases hji : j = i
          · simp [hji, holdsW] at hx
          · simp [hji] at hx
            have := hme _ hh (.w j) (by simpa [holds] using hx)
            exact hji (Who.w.inj this)
    · simp only [upd] at hj; split at hj
      · simp at hj
      · exact h.seen j hj
    · simp only [upd] at hj; split at hj
      · refine ⟨hcd, fun hx => ?_, fun hx => ?_⟩
        · have := h.flag.2 (.inr (.inl hx)); rw [hf] at this; cases this
        · have := h.flag.2 (.inr (.inr hx)); rw [hf] at this; cases this
      · exact h.slept j hj
  case spin i => exact h
  case see i =>
    obtain ⟨_, hp, hf⟩ := hc
    refine ⟨fun w => ?_, h.flag, fun j hj => ?_, fun j hj => ?_⟩
    · rw [ow w]
      cases w with
      | setter => simp [holds]
      | w j =>
        simp only [holds, upd]
        by_cases hji : j = i
        · simp [hji, hp, holdsW]
        · simp [hji]
    · exact hf
    · simp only [upd] at hj; split at hj
      · simp at hj
      · exact h.slept j hj
  case unlock i =>
    obtain ⟨_, hp⟩ := hc
    have hh : holds s (.w i) = true := by simp [holds, hp, holdsW]
    refine ⟨fun w => ?_, h.flag, fun j hj => h.seen i (.inl hp), fun j hj => ?_⟩
    · constructor
      · intro hx; simp at hx
      · intro hx
        exfalso
        cases w with
        | setter => have := hme _ hh .setter (by simpa [holds] using hx); cases this
        | w j =>
          simp only [holds, upd] at hx
          by_cases hji : j = i
          · simp [hji, holdsW] at hx
          · simp [hji] at hx
            have := hme _ hh (.w j) (by simpa [holds] using hx)
            exact hji (Who.w.inj this)
    · simp only [upd] at hj; split at hj
      · simp at hj
      · exact h.slept j hj
  case spurious i =>
    obtain ⟨_, hp⟩ := hc
    refine ⟨fun w => ?_, h.flag, fun j hj => ?_, fun j hj => ?_⟩
    · rw [ow w]
      cases w with
      | setter => simp [holds]
      | w j =>
        simp only [holds, upd]
        by_cases hji : j = i
        · simp [hji, hp, holdsW]
        · simp [hji]
    · simp only [upd] at hj; split at hj
      · simp at hj
      · exact h.seen j hj
    · simp only [upd] at hj; split at hj
      · simp at hj
      · exact h.slept j hj
  case sLock =>
    obtain ⟨hp, hn⟩ := hc
    obtain ⟨h1, h2⟩ := hwn hn
    refine ⟨fun w => ?_, ?_, h.seen, fun j hj => ⟨(h.slept j hj).1, by simp, by simp⟩⟩
    · cases w with
      | setter => simp [holds, holdsS]
      | w j => simp [holds, h1]
    · have := h.flag; simp [hp] at this; simp [this]
  case sSet =>
    refine ⟨fun w => ?_, by simp, fun j hj => rfl, fun j hj => ⟨(h.slept j hj).1, by simp, by simp⟩⟩
    rw [ow w]
    cases w with
    | setter => simp [holds, hc, holdsS]
    | w j => simp [holds]
  case sBc =>
    have hf := h.flag.2 (by simp [hc])
    refine ⟨fun w => ?_, by simp [hf], fun j hj => hf, fun j hj => ?_⟩
    · rw [ow w]
      cases w with
      | setter => simp [holds, hc, holdsS]
      | w j =>
        simp only [holds, wakeAll]
        split
        · rename_i hx; simp [hx.2, holdsW]
        · rfl
    · simp only [wakeAll] at hj
      split at hj
      · simp at hj
      · rename_i hx; exact absurd ⟨(h.slept j hj).1, hj⟩ hx
  case sUnlock =>
    have hh : holds s .setter = true := by simp [holds, hc, holdsS]
    refine ⟨fun w => ?_, ?_, h.seen, fun j hj => absurd hc (h.slept j hj).2.1⟩
    · constructor
      · intro hx; simp at hx
      · intro hx
        exfalso
        cases w with
        | setter => simp [holds, holdsS] at hx
        | w j => have := hme _ hh (.w j) (by simpa [holds] using hx); cases this
    · have := h.flag.2 (by simp [hc]); simp [this]

theorem inv_run (n : Nat) (es : List Ev) (s t : St) (h : Inv s) (hr : run n s es = some t) : Inv t := by
  induction es generalizing s with
  | nil => simp only [run, Option.some.injEq] at hr; exact hr ▸ h
  | cons e es ih =>
    obtain ⟨u, h1, h2⟩ := Option.bind_eq_some_iff.1 hr
    exact ih u (inv_step n s u e h h1) h2

theorem cond_run (n : Nat) (es : List Ev) (s t : St) (hr : run n s es = some t) : t.cond = s.cond := by
  induction es generalizing s with
  | nil => simp only [run, Option.some.injEq] at hr; exact hr ▸ rfl
  | cons e es ih =>
    obtain ⟨u, h1, h2⟩ := Option.bind_eq_some_iff.1 hr
    rw [ih u h2]
    cases e <;> simp only [step] at h1 <;> split at h1 <;> cases h1 <;> rfl

theorem low_run (n : Nat) (es : List Ev) (s t : St) (h : ∀ i, s.pc i ≠ .out → i < n) (hr : run n s es = some t) : ∀ i, t.pc i ≠ .out → i < n := by
  induction es generalizing s with
  | nil => simp only [run, Option.some.injEq] at hr; exact hr ▸ h
  | cons e es ih =>
    obtain ⟨u, h1, h2⟩ := Option.bind_eq_some_iff.1 hr
    refine ih u (fun i hi => ?_) h2
    cases e <;> simp only [step] at h1 <;> split at h1 <;> cases h1 <;> rename_i hc <;> (try simp only [upd, wakeAll] at hi) <;> (try split at hi) <;>
      (try exact h i hi) <;> (try (rename_i hx; subst hx; exact hc.1))
    rename_i hx
    exact h i (by simp [hx.2])

/-- C229, safety, with or without a variable: at most one thread has the lock, and a waiting thread goes on only when the flag was set. -/
theorem C229_safe (n : Nat) (c : Bool) (es : List Ev) (s : St) (hr : run n (St.init c) es = some s) :
    (∀ v w, holds s v = true → holds s w = true → v = w) ∧ (∀ i, s.pc i = .done → s.flag = true) := by
  have h := inv_run n es _ _ (inv_init c) hr
  refine ⟨fun v w hv hw => ?_, fun i hi => h.seen i (.inr hi)⟩
  have a := (h.own v).2 hv
  have b := (h.own w).2 hw
  rw [a] at b
  exact Option.some.inj b

/-- C229, the part that holds, nobody is left: while not everyone has come out, something can happen that is not a spurious wake-up. -/
theorem C229_goes_on_partial (n : Nat) (es : List Ev) (s : St) (hr : run n (St.init true) es = some s) (hd : ¬ allDone n s) :
    ∃ e t, isSpurious e = false ∧ step n s e = some t := by
  have h := inv_run n es _ _ (inv_init true) hr
  have hc : s.cond = true := cond_run n es _ _ hr
  by_cases hn : s.owner = none
  · cases hsp : s.sp with
    | out => exact ⟨.sLock, _, rfl, by simp only [step]; rw [if_pos ⟨hsp, hn⟩]⟩
    | set => exact ⟨.sSet, _, rfl, by simp only [step]; rw [if_pos hsp]⟩
    | bc => exact ⟨.sBc, _, rfl, by simp only [step]; rw [if_pos hsp]⟩
    | unl => exact ⟨.sUnlock, _, rfl, by simp only [step]; rw [if_pos hsp]⟩
    | done =>
      have : ∃ i, i < n ∧ s.pc i ≠ .done := by
        refine Classical.byContradiction fun hx => hd ⟨hsp, fun i hi => Classical.byContradiction fun hy => hx ⟨i, hi, hy⟩⟩
      obtain ⟨i, hi, hp⟩ := this
      cases hpi : s.pc i with
      | out => exact ⟨.lock i, _, rfl, by simp only [step]; rw [if_pos ⟨hi, .inl hpi, hn⟩]⟩
      | woken => exact ⟨.lock i, _, rfl, by simp only [step]; rw [if_pos ⟨hi, .inr hpi, hn⟩]⟩
      | asleep => exact absurd hsp (h.slept i hpi).2.2
      | done => exact absurd hpi hp
      | chk => have := (h.own (.w i)).2 (by simp [holds, hpi, holdsW]); simp [hn] at this
      | unl => have := (h.own (.w i)).2 (by simp [holds, hpi, holdsW]); simp [hn] at this
  · cases how : s.owner with
    | none => exact absurd how hn
    | some w =>
      have hw := (h.own w).1 how
      cases w with
      | setter =>
        simp only [holds] at hw
        cases hsp : s.sp with
        | out => simp [hsp, holdsS] at hw
        | done => simp [hsp, holdsS] at hw
        | set => exact ⟨.sSet, _, rfl, by simp only [step]; rw [if_pos hsp]⟩
        | bc => exact ⟨.sBc, _, rfl, by simp only [step]; rw [if_pos hsp]⟩
        | unl => exact ⟨.sUnlock, _, rfl, by simp only [step]; rw [if_pos hsp]⟩
      | w i =>
        simp only [holds] at hw
        have hi : i < n := low_run n es _ _ (fun i hi => by simp [St.init] at hi) hr i (by intro hx; simp [hx, holdsW] at hw)
        cases hpi : s.pc i with
        | out => simp [hpi, holdsW] at hw
        | asleep => simp [hpi, holdsW] at hw
        | woken => simp [hpi, holdsW] at hw
        | done => simp [hpi, holdsW] at hw
        | unl => exact ⟨.unlock i, _, rfl, by simp only [step]; rw [if_pos ⟨hi, hpi⟩]⟩
        | chk =>
          cases hf : s.flag with
          | true => exact ⟨.see i, _, rfl, by simp only [step]; rw [if_pos ⟨hi, hpi, hf⟩]⟩
          | false => exact ⟨.sleep i, _, rfl, by simp only [step]; rw [if_pos ⟨hi, hpi, hf, hc⟩]⟩

/-! ## It ends -/

def rankW : WPc → Nat
  | .out => 7 | .woken => 6 | .chk => 5 | .asleep => 4 | .unl => 1 | .done => 0

theorem rank_out : rankW .out = 7 := rfl
theorem rank_woken : rankW .woken = 6 := rfl
theorem rank_chk : rankW .chk = 5 := rfl
theorem rank_asleep : rankW .asleep = 4 := rfl
theorem rank_unl : rankW .unl = 1 := rfl
theorem rank_done : rankW .done = 0 := rfl

def rankS (n : Nat) : SPc → Nat
  | .out => 2 * n + 5 | .set => 2 * n + 4 | .bc => 2 * n + 3 | .unl => 1 | .done => 0

def sumTo (f : Nat → Nat) : Nat → Nat
  | 0 => 0
  | n + 1 => sumTo f n + f n

def measure (n : Nat) (s : St) : Nat := sumTo (fun i => rankW (s.pc i)) n + rankS n s.sp

theorem sumTo_upd (f : Nat → WPc) (i n : Nat) (v : WPc) (hi : i < n) :
    sumTo (fun j => rankW (upd f i v j)) n + rankW (f i) = sumTo (fun j => rankW (f j)) n + rankW v := by
  have other : ∀ m, m ≤ i → sumTo (fun j => rankW (upd f i v j)) m = sumTo (fun j => rankW (f j)) m := by
    intro m
    induction m with
    | zero => intro _; rfl
    | succ m ih => intro hm; simp only [sumTo]; rw [ih (by omega)]; simp [upd, show m ≠ i by omega]
  induction n with
  | zero => omega
  | succ n ih =>
    simp only [sumTo]
    by_cases h : i = n
    · subst h
      rw [other i (Nat.le_refl _)]
      simp [upd]
      omega
    · have := ih (by omega)
      simp only [upd, show n ≠ i by omega, if_false] at *
      omega

theorem sumTo_wake (c : Bool) (f : Nat → WPc) (n : Nat) :
    sumTo (fun j => rankW (wakeAll c f j)) n ≤ sumTo (fun j => rankW (f j)) n + 2 * n := by
  induction n with
  | zero => simp [sumTo]
  | succ n ih =>
    simp only [sumTo]
    have : rankW (wakeAll c f n) ≤ rankW (f n) + 2 := by
      simp only [wakeAll]
      split
      · rename_i h; simp [h.2, rankW]
      · omega
    omega

theorem measure_step (n : Nat) (s t : St) (e : Ev) (hc : s.cond = true) (hs : step n s e = some t) :
    if isSpurious e then measure n t ≤ measure n s + 2 else measure n t < measure n s := by
  cases e <;> simp only [step] at hs <;> split at hs <;> cases hs <;> rename_i h <;> simp only [isSpurious, measure, Bool.false_eq_true, if_true, if_false]
  case lock i =>
    have := sumTo_upd s.pc i n .chk h.1
    rcases h.2.1 with h' | h' <;> simp only [h', rank_out, rank_woken, rank_chk, rank_asleep, rank_unl, rank_done] at this <;> omega
  case sleep i => have := sumTo_upd s.pc i n .asleep h.1; simp only [h.2.1, rank_out, rank_woken, rank_chk, rank_asleep, rank_unl, rank_done] at this; omega
  case spin i => simp [hc] at h
  case see i => have := sumTo_upd s.pc i n .unl h.1; simp only [h.2.1, rank_out, rank_woken, rank_chk, rank_asleep, rank_unl, rank_done] at this; omega
  case unlock i => have := sumTo_upd s.pc i n .done h.1; simp only [h.2, rank_out, rank_woken, rank_chk, rank_asleep, rank_unl, rank_done] at this; omega
  case spurious i => have := sumTo_upd s.pc i n .woken h.1; simp only [h.2, rank_out, rank_woken, rank_chk, rank_asleep, rank_unl, rank_done] at this; omega
  case sLock => simp only [h.1, rankS]; omega
  case sSet => simp only [h, rankS]; omega
  case sBc => have := sumTo_wake s.cond s.pc n; simp only [h, rankS]; omega
  case sUnlock => simp only [h, rankS]; omega

theorem measure_run (n : Nat) (es : List Ev) (s t : St) (hc : s.cond = true) (hr : run n s es = some t) :
    es.length + measure n t ≤ measure n s + 3 * spuriousIn es := by
  induction es generalizing s with
  | nil => simp only [run, Option.some.injEq] at hr; subst hr; simp
  | cons e es ih =>
    obtain ⟨u, h1, h2⟩ := Option.bind_eq_some_iff.1 hr
    have hu : u.cond = true := by rw [cond_run n [e] s u (by simp [run, h1])]; exact hc
    have a := measure_step n s u e hc h1
    have b := ih u hu h2
    unfold spuriousIn at *
    rw [List.countP_cons, List.length_cons]
    cases e <;> simp [isSpurious] at a ⊢ <;> omega

/-- C229, the part that holds, it ends: with `n` waiting threads no history is longer than 9 n + 5 steps and three for every spurious wake-up.
    With `C229_goes_on_partial`: everybody comes out.  (What is missing: objects without a variable, `C229_violated`.) -/
theorem C229_ends_partial (n : Nat) (es : List Ev) (s : St) (hr : run n (St.init true) es = some s) : es.length ≤ 9 * n + 5 + 3 * spuriousIn es := by
  have := measure_run n es _ _ rfl hr
  have h0 : ∀ m, sumTo (fun _ => rankW .out) m = 7 * m := by
    intro m
    induction m with
    | zero => rfl
    | succ m ih => simp only [sumTo, rank_out] at ih ⊢; omega
  have h1 : measure n (St.init true) = 7 * n + (2 * n + 5) := by simp only [measure, St.init, h0, rankS]
  omega

example : ∃ s, run 2 (St.init true) [.lock 0, .sleep 0, .spurious 0, .lock 0, .sleep 0, .lock 1, .sleep 1, .sLock, .sSet, .sBc, .sUnlock, .lock 1, .see 1, .unlock 1,
    .lock 0, .see 0, .unlock 0] = some s ∧ allDone 2 s :=
  ⟨_, rfl, rfl, fun i hi => match i, hi with
    | 0, _ => rfl
    | 1, _ => rfl⟩

/-! ## Without a variable -/

/-- C229 is false when the port could not make the variable, which aosl_cond_create does not tell: once a thread waits, whatever happens, the setter never
    gets the lock, nobody comes out, and the wait is called again and again. -/
theorem C229_violated (n i : Nat) (hi : i < n) : ∃ s, run n (St.init false) [.lock i] = some s ∧
    ∀ es t, run n s es = some t → t.flag = false ∧ t.sp = .out ∧ (∀ j, t.pc j ≠ .done) ∧ (∃ u, step n t (.spin i) = some u) ∧
      es = List.replicate es.length (.spin i) := by
  refine ⟨{ St.init false with owner := some (.w i), pc := upd (St.init false).pc i .chk }, by simp [run, step, hi, St.init], ?_⟩
  generalize hs : ({ St.init false with owner := some (.w i), pc := upd (St.init false).pc i .chk } : St) = s
  have hw : ∀ e u, step n s e = some u → e = .spin i ∧ u = s := by
    intro e u h
    subst hs
    cases e <;> simp only [step] at h <;> split at h <;> cases h <;> rename_i hc <;> simp [St.init, upd] at hc <;>
      (try (have h2 := hc.2; split at h2 <;> simp at h2; done))
    rename_i j
    exact ⟨by by_cases hj : j = i
              · rw [hj]
              · exact absurd hc.2 hj, rfl⟩
  intro es t hr
  have key : t = s ∧ es = List.replicate es.length (.spin i) := by
    induction es with
    | nil => simp only [run, Option.some.injEq] at hr; exact ⟨hr.symm, rfl⟩
    | cons e es ih =>
      obtain ⟨u, h1, h2⟩ := Option.bind_eq_some_iff.1 hr
      obtain ⟨rfl, rfl⟩ := hw e u h1
      obtain ⟨a, b⟩ := ih h2
      refine ⟨a, ?_⟩
      rw [List.length_cons, List.replicate_succ, ← b]
  obtain ⟨rfl, he⟩ := key
  subst hs
  refine ⟨rfl, rfl, fun j => ?_, ?_, he⟩
  · simp only [St.init, upd]; split <;> simp
  · simp [step, hi, St.init, upd]

end Verif.PortCond
