import Verif.Wakeup

/-! # No lost wake-up (C45) -/

namespace Verif.Wakeup

/-- A thread that has added a function or asked for termination, and has not finished kicking. -/
def Kicking (s : St) : Prop := ∃ (t : Nat) (p : PPc), s.thr[t]? = some p ∧ p ≠ .idle

/-- The queue has something to do. -/
def Work (s : St) : Prop := 0 < s.pend ∨ s.term = true

def wrs (l : List PPc) : Nat := l.countP (· == .wr)

structure Inv (s : St) : Prop where
  cap : 1 ≤ s.cap
  need : ∀ t, s.pc = .rdTerm t ∨ s.pc = .rdCount t ∨ (t ≠ .zero ∧ s.pc = .preWait t) ∨ s.pc = .waiting t → s.need = true
  term : ∀ t, s.pc = .rdCount t ∨ (t ≠ .zero ∧ (s.pc = .preWait t ∨ s.pc = .waiting t)) → s.term = true → 0 < s.sig ∨ Kicking s
  pend : ∀ t, t ≠ .zero ∧ (s.pc = .preWait t ∨ s.pc = .waiting t) → 0 < s.pend → 0 < s.sig ∨ Kicking s
  kick : s.event = false → s.kick = s.sig + wrs s.thr

theorem setT_get {l : List PPc} {t u : Nat} {p x : PPc} (h : (l.set t p)[u]? = some x) : (u = t ∧ x = p) ∨ (u ≠ t ∧ l[u]? = some x) := by
  rw [List.getElem?_set] at h
  grind

theorem wrs_set {l : List PPc} {t : Nat} {x : PPc} (h : l[t]? = some x) (p : PPc) :
    wrs (l.set t p) + (if x = .wr then 1 else 0) = wrs l + (if p = .wr then 1 else 0) := by
  induction l generalizing t with
  | nil => simp at h
  | cons a as ih =>
    cases t with
    | zero => simp at h; subst h; simp [wrs, List.countP_cons]; omega
    | succ t =>
      simp at h
      have := ih h
      simp only [wrs, List.set_cons_succ, List.countP_cons] at this ⊢
      omega

theorem kicking_set {l : List PPc} {t : Nat} {x : PPc} (h : l[t]? = some x) {p : PPc} (hp : p ≠ .idle) : ∃ (u : Nat) (q : PPc), (l.set t p)[u]? = some q ∧ q ≠ .idle := by
  refine ⟨t, p, ?_, hp⟩
  have : t < l.length := by
    rcases Nat.lt_or_ge t l.length with h1 | h1
    · exact h1
    · rw [List.getElem?_eq_none h1] at h; simp at h
  simp [this]

/-- The steps of the other threads. -/
theorem inv_producer {s s' : St} (hi : Inv s) {a : Act} (ha : ∃ t, a = .add t ∨ a = .destroy t ∨ a = .rdNeed t ∨ a = .incKick t ∨ a = .write t)
    (h : step s a = some s') : Inv s' := by
  obtain ⟨t, rfl | rfl | rfl | rfl | rfl⟩ := ha
  · simp only [step] at h
    split at h
    · rename_i ht
      cases h
      refine ⟨hi.cap, hi.need, fun _ _ _ => Or.inr (kicking_set ht (by simp)), fun _ _ _ => Or.inr (kicking_set ht (by simp)), fun he => ?_⟩
      have := wrs_set ht .kick
      have := hi.kick he
      simp [setT] at *; omega
    · simp at h
  · simp only [step] at h
    split at h
    · rename_i ht
      cases h
      refine ⟨hi.cap, hi.need, fun _ _ _ => Or.inr (kicking_set ht (by simp)), fun _ _ _ => Or.inr (kicking_set ht (by simp)), fun he => ?_⟩
      have := wrs_set ht .kick
      have := hi.kick he
      simp [setT] at *; omega
    · simp at h
  · simp only [step] at h
    split at h
    · rename_i ht
      cases h
      refine ⟨hi.cap, hi.need, fun t' hp hk => ?_, fun t' hp hk => ?_, fun he => ?_⟩
      · have hn := hi.need t' (by simp only [setT] at hp; grind)
        exact Or.inr (by simp only [setT, hn, if_true]; exact kicking_set ht (by simp))
      · have hn := hi.need t' (by simp only [setT] at hp; grind)
        exact Or.inr (by simp only [setT, hn, if_true]; exact kicking_set ht (by simp))
      · have h1 := wrs_set ht (if s.need then .inc else .idle)
        have := hi.kick he
        cases hn : s.need <;> simp [setT, hn] at * <;> omega
    · simp at h
  · simp only [step] at h
    split at h
    · rename_i ht
      cases h
      refine ⟨hi.cap, hi.need, fun _ _ _ => Or.inr (kicking_set ht (by simp)), fun _ _ _ => Or.inr (kicking_set ht (by simp)), fun he => ?_⟩
      have := wrs_set ht .wr
      have := hi.kick he
      simp [setT] at *; omega
    · simp at h
  · simp only [step] at h
    split at h
    · rename_i ht
      have h1 := wrs_set ht .idle
      split at h
      · rename_i he
        cases h
        exact ⟨hi.cap, hi.need, fun _ _ _ => Or.inl (by simp [setT]), fun _ _ _ => Or.inl (by simp [setT]), fun he' => by simp [setT, he] at he'⟩
      · split at h
        · cases h
          refine ⟨hi.cap, hi.need, fun _ _ _ => Or.inl (by simp [setT]), fun _ _ _ => Or.inl (by simp [setT]), fun he' => ?_⟩
          have := hi.kick he'
          simp [setT] at *; omega
        · rename_i hc
          cases h
          have hs : 0 < s.sig := by have := hi.cap; omega
          refine ⟨hi.cap, hi.need, fun _ _ _ => Or.inl hs, fun _ _ _ => Or.inl hs, fun he' => ?_⟩
          have := hi.kick he'
          simp [setT] at *; omega
    · simp at h

theorem inv_step {s s' : St} (hi : Inv s) {a : Act} (h : step s a = some s') : Inv s' := by
  cases a with
  | add t => exact inv_producer hi ⟨t, by simp⟩ h
  | destroy t => exact inv_producer hi ⟨t, by simp⟩ h
  | rdNeed t => exact inv_producer hi ⟨t, by simp⟩ h
  | incKick t => exact inv_producer hi ⟨t, by simp⟩ h
  | write t => exact inv_producer hi ⟨t, by simp⟩ h
  | work k io =>
    simp only [step] at h; split at h
    · cases h; exact ⟨hi.cap, by simp, by simp, by simp, hi.kick⟩
    · simp at h
  | chkTerm =>
    simp only [step] at h; split at h
    · cases h; refine ⟨hi.cap, ?_, ?_, ?_, hi.kick⟩ <;> intro t <;> cases s.term <;> simp
    · simp at h
  | cond t0 =>
    simp only [step] at h; split at h
    · cases h; refine ⟨hi.cap, ?_, ?_, ?_, hi.kick⟩ <;> intro t <;> simp only <;> split <;> simp
    · simp at h
  | setNeed =>
    simp only [step] at h; split at h
    · cases h; exact ⟨hi.cap, by simp, by simp, by simp, hi.kick⟩
    · simp at h
  | rdTerm =>
    simp only [step] at h; split at h
    · rename_i t0 hp
      cases h
      have hn := hi.need t0 (Or.inl hp)
      refine ⟨hi.cap, fun _ _ => hn, fun t h1 h2 => ?_, ?_, hi.kick⟩
      · simp only at h1 h2; simp [h2] at h1
      · intro t; cases s.term <;> simp
    · simp at h
  | rdCount =>
    simp only [step] at h; split at h
    · rename_i t0 hp
      cases h
      have hn := hi.need t0 (Or.inr (Or.inl hp))
      have ht := hi.term t0 (Or.inl hp)
      refine ⟨hi.cap, fun _ _ => hn, fun t _ h2 => ht h2, fun t h1 h2 => ?_, hi.kick⟩
      simp only at h1 h2; simp [h2] at h1
    · simp at h
  | clrNeed =>
    simp only [step] at h; split at h
    · cases h; exact ⟨hi.cap, by simp, by simp, by simp, hi.kick⟩
    · simp at h
  | rdKick =>
    simp only [step] at h; split at h
    · cases h; refine ⟨hi.cap, ?_, ?_, ?_, hi.kick⟩ <;> intro t <;> simp only <;> split <;> simp <;> intro h1 h2 <;> exact absurd h2.symm h1
    · simp at h
  | preWait =>
    simp only [step] at h; split at h
    · rename_i t0 hp
      cases h
      refine ⟨hi.cap, by simp, fun t h1 h2 => ?_, fun t h1 h2 => ?_, hi.kick⟩
      · simp at h1; obtain ⟨h1, rfl⟩ := h1; exact hi.term t0 (Or.inr ⟨h1, Or.inl hp⟩) h2
      · simp at h1; obtain ⟨h1, rfl⟩ := h1; exact hi.pend t0 ⟨h1, Or.inl hp⟩ h2
    · simp at h
  | wakeSig =>
    simp only [step] at h; split at h
    · split at h
      · cases h
        refine ⟨hi.cap, by simp, by simp, by simp, fun he => ?_⟩
        have := hi.kick he
        simp at he; simp [he]; exact this
      · simp at h
    · simp at h
  | wakeOther =>
    simp only [step] at h; split at h
    · cases h
      refine ⟨hi.cap, by simp, by simp, by simp, fun he => ?_⟩
      have := hi.kick he
      simp at he; simp [he]; exact this
    · simp at h
  | postWait =>
    simp only [step] at h; split at h
    · cases h; exact ⟨hi.cap, by simp, by simp, by simp, hi.kick⟩
    · simp at h
  | drain k =>
    simp only [step] at h; split at h
    · split at h
      · cases h; exact ⟨hi.cap, by simp, by simp, by simp, hi.kick⟩
      · split at h
        · cases h
          refine ⟨hi.cap, by simp, by simp, by simp, fun he => ?_⟩
          have := hi.kick he
          simp at *; omega
        · simp at h
    · simp at h

theorem inv_run {s s' : St} (hi : Inv s) (acts : List Act) (h : run s acts = some s') : Inv s' := by
  induction acts generalizing s with
  | nil => simp [run] at h; subst h; exact hi
  | cons a as ih =>
    simp only [run] at h
    split at h
    · rename_i s1 h1; exact ih (inv_step hi h1) h
    · simp at h

theorem inv_reach {s : St} (h : Reachable s) : Inv s := by
  obtain ⟨n, e, c, acts, hc, h⟩ := h
  refine inv_run ⟨hc, ?_, ?_, ?_, ?_⟩ acts h
  · simp [init]
  · simp [init]
  · simp [init]
  · intro _
    have : wrs (List.replicate n PPc.idle) = 0 := by
      unfold wrs; rw [List.countP_eq_zero]; intro a ha; simp at ha; simp [ha.2]
    simp [init, this]

/-- C45: whenever the queue's thread is blocked in its wait without a deadline of zero while a function is
pending or termination was asked for, a wake-up is there, or the thread that added the function is still
about to give one (and will: see `C45_kick_arrives`). -/
theorem C45_no_lost_wakeup (s : St) (h : Reachable s) (t : TO) (hw : s.pc = .waiting t) (ht : t ≠ .zero) (hp : Work s) :
    0 < s.sig ∨ Kicking s := by
  have hi := inv_reach h
  rcases hp with hp | hp
  · exact hi.pend t ⟨ht, Or.inr hw⟩ hp
  · exact hi.term t (Or.inr ⟨ht, Or.inr hw⟩) hp

theorem lt_of_get {l : List PPc} {t : Nat} {x : PPc} (h : l[t]? = some x) : t < l.length := by
  rcases Nat.lt_or_ge t l.length with h1 | h1
  · exact h1
  · rw [List.getElem?_eq_none h1] at h; simp at h

/-- C45: a thread that is about to give the wake-up gives it: its remaining steps, taken while the queue's
thread waits, make the wait return. -/
theorem C45_kick_arrives (s : St) (h : Reachable s) (w : TO) (hw : s.pc = .waiting w) (t : Nat) (p : PPc) (ht : s.thr[t]? = some p) (hp : p ≠ .idle) :
    ∃ s', run s (match p with | .kick => [.rdNeed t, .incKick t, .write t] | .inc => [.incKick t, .write t] | _ => [.write t]) = some s' ∧
      0 < s'.sig ∧ s'.pc = .waiting w ∧ s'.pend = s.pend ∧ s'.executed = s.executed ∧ s'.term = s.term := by
  have hi := inv_reach h
  have hn := hi.need w (Or.inr (Or.inr (Or.inr hw)))
  have hl := lt_of_get ht
  have hcap := hi.cap
  have fw : ∀ (u : St), u.thr[t]? = some .wr → 1 ≤ u.cap → ∃ u', run u [.write t] = some u' ∧ 0 < u'.sig ∧ u'.pc = u.pc ∧ u'.pend = u.pend ∧
      u'.executed = u.executed ∧ u'.term = u.term := by
    intro u hu hc
    cases he : u.event
    · by_cases hs : u.sig < u.cap
      · exact ⟨setT { u with sig := u.sig + 1 } t .idle, by simp [run, step, hu, he, hs], by simp [setT], rfl, rfl, rfl, rfl⟩
      · exact ⟨setT { u with kick := u.kick - 1 } t .idle, by simp [run, step, hu, he, hs], by simp [setT]; omega, rfl, rfl, rfl, rfl⟩
    · exact ⟨setT { u with sig := 1 } t .idle, by simp [run, step, hu, he], by simp [setT], rfl, rfl, rfl, rfl⟩
  have fi : ∀ (u : St), u.thr[t]? = some .inc → 1 ≤ u.cap → ∃ u', run u [.incKick t, .write t] = some u' ∧ 0 < u'.sig ∧ u'.pc = u.pc ∧ u'.pend = u.pend ∧
      u'.executed = u.executed ∧ u'.term = u.term := by
    intro u hu hc
    have e : step u (.incKick t) = some (setT { u with kick := u.kick + 1 } t .wr) := by simp [step, hu]
    have hl := lt_of_get hu
    obtain ⟨u', h1, h2⟩ := fw (setT { u with kick := u.kick + 1 } t .wr) (by simp [setT, hl]) hc
    exact ⟨u', by rw [run, e]; exact h1, h2⟩
  cases p with
  | idle => exact absurd rfl hp
  | kick =>
    have e : step s (.rdNeed t) = some (setT s t .inc) := by simp [step, ht, hn]
    obtain ⟨u', h1, h2⟩ := fi (setT s t .inc) (by simp [setT, hl]) hcap
    exact ⟨u', by rw [run, e]; exact h1, by rw [← hw]; exact h2⟩
  | inc =>
    obtain ⟨u', h1, h2⟩ := fi s ht hcap
    exact ⟨u', h1, by rw [← hw]; exact h2⟩
  | wr =>
    obtain ⟨u', h1, h2⟩ := fw s ht hcap
    exact ⟨u', h1, by rw [← hw]; exact h2⟩

/-! ## Every schedule executes what was added -/

/-- Steps that need no help: those of the queue's thread itself, whose wait returns only because of the signal or because its
time-out was 0; and the rest of kicks already begun.  No new function, no timer, no fd event, no other signal. -/
def unaided (s : St) : Act → Bool
  | .add _ => false
  | .destroy _ => false
  | .wakeOther => s.pc == .waiting .zero
  | _ => true

/-- A run all of whose steps are unaided. -/
def runU (s : St) : List Act → Option St
  | [] => some s
  | a :: as => if unaided s a then (match step s a with | some s' => runU s' as | none => none) else none

theorem runU_run {s s' : St} {as : List Act} (h : runU s as = some s') : run s as = some s' := by
  induction as generalizing s with
  | nil => exact h
  | cons a as ih =>
    simp only [runU] at h
    split at h
    · split at h
      · rename_i s1 h1; simp only [run, h1]; exact ih h
      · simp at h
    · simp at h

theorem run_append {s s' : St} {as bs : List Act} (h : run s as = some s') : run s (as ++ bs) = run s' bs := by
  induction as generalizing s with
  | nil => simp [run] at h; simp [h]
  | cons a as ih =>
    simp only [run, List.cons_append] at h ⊢
    split at h
    · exact ih h
    · simp at h

theorem reach_step {s s' : St} (h : Reachable s) {a : Act} (hs : step s a = some s') : Reachable s' := by
  obtain ⟨n, e, c, acts, h1, h2⟩ := h
  exact ⟨n, e, c, acts ++ [a], h1, by rw [run_append h2]; simp [run, hs]⟩

def rank : CPc → Nat
  | .work => 0 | .exited => 0 | .drain => 1 | .postWait => 2 | .waiting _ => 3 | .preWait _ => 4 | .rdKick => 5 | .clrNeed => 6
  | .rdCount _ => 7 | .rdTerm _ => 8 | .setNeed _ => 9 | .cond => 10 | .chkTerm => 11

def prank : PPc → Nat
  | .idle => 0 | .wr => 1 | .inc => 2 | .kick => 3

def psum (l : List PPc) : Nat := (l.map prank).sum

def M (s : St) : Nat := rank s.pc + psum s.thr

theorem psum_set {l : List PPc} {t : Nat} {x : PPc} (h : l[t]? = some x) (p : PPc) : psum (l.set t p) + prank x = psum l + prank p := by
  induction l generalizing t with
  | nil => simp at h
  | cons a as ih =>
    cases t with
    | zero => simp at h; subst h; simp [psum]; omega
    | succ t =>
      simp at h
      have := ih h
      simp only [psum, List.set_cons_succ, List.map_cons, List.sum_cons] at this ⊢
      omega

theorem psum_le (l : List PPc) : psum l ≤ 3 * l.length := by
  induction l with
  | nil => simp [psum]
  | cons a as ih =>
    have : prank a ≤ 3 := by cases a <;> simp [prank]
    simp only [psum, List.map_cons, List.sum_cons, List.length_cons] at ih ⊢
    omega

theorem rank_le (p : CPc) : rank p ≤ 11 := by cases p <;> simp [rank]

/-- Same amount of work, nothing executed. -/
structure Same (s s' : St) : Prop where
  p : s'.pend = s.pend
  x : s'.executed = s.executed
  t : s'.term = s.term

def isWork : Act → Bool
  | .work _ _ => true
  | _ => false

/-- An unaided step other than the execution of the pending functions brings it nearer. -/
theorem unaided_step {s s' : St} {a : Act} (ha : unaided s a = true) (hw : isWork a = false) (h : step s a = some s') :
    M s' + 1 ≤ M s ∧ Same s s' := by
  cases a with
  | add t => simp [unaided] at ha
  | destroy t => simp [unaided] at ha
  | rdNeed t =>
    simp only [step] at h; split at h
    · rename_i ht
      cases h
      refine ⟨?_, rfl, rfl, rfl⟩
      have := psum_set ht (if s.need then .inc else .idle)
      cases hn : s.need <;> simp [setT, M, hn, prank] at * <;> omega
    · simp at h
  | incKick t =>
    simp only [step] at h; split at h
    · rename_i ht
      cases h
      refine ⟨?_, rfl, rfl, rfl⟩
      have := psum_set ht .wr
      simp [setT, M, prank] at *; omega
    · simp at h
  | write t =>
    simp only [step] at h; split at h
    · rename_i ht
      have := psum_set ht .idle
      split at h
      · cases h; exact ⟨by simp [setT, M, prank] at *; omega, rfl, rfl, rfl⟩
      · split at h <;> cases h <;> exact ⟨by simp [setT, M, prank] at *; omega, rfl, rfl, rfl⟩
    · simp at h
  | work k io => simp [isWork] at hw
  | chkTerm =>
    simp only [step] at h; split at h
    · rename_i hp; cases h
      refine ⟨?_, rfl, rfl, rfl⟩
      simp only [M, hp]; split <;> simp [rank] <;> omega
    · simp at h
  | cond t =>
    simp only [step] at h; split at h
    · rename_i hp; cases h
      refine ⟨?_, rfl, rfl, rfl⟩
      simp only [M, hp]; split <;> simp [rank] <;> omega
    · simp at h
  | setNeed =>
    simp only [step] at h; split at h
    · rename_i hp; cases h
      refine ⟨?_, rfl, rfl, rfl⟩
      simp only [M, hp]; simp [rank]; omega
    · simp at h
  | rdTerm =>
    simp only [step] at h; split at h
    · rename_i hp; cases h
      refine ⟨?_, rfl, rfl, rfl⟩
      simp only [M, hp]; split <;> simp [rank] <;> omega
    · simp at h
  | rdCount =>
    simp only [step] at h; split at h
    · rename_i hp; cases h
      refine ⟨?_, rfl, rfl, rfl⟩
      simp only [M, hp]; split <;> simp [rank] <;> omega
    · simp at h
  | clrNeed =>
    simp only [step] at h; split at h
    · rename_i hp; cases h
      refine ⟨?_, rfl, rfl, rfl⟩
      simp only [M, hp]; simp [rank]; omega
    · simp at h
  | rdKick =>
    simp only [step] at h; split at h
    · rename_i hp; cases h
      refine ⟨?_, rfl, rfl, rfl⟩
      simp only [M, hp]; split <;> simp [rank] <;> omega
    · simp at h
  | preWait =>
    simp only [step] at h; split at h
    · rename_i hp; cases h
      refine ⟨?_, rfl, rfl, rfl⟩
      simp only [M, hp]; simp [rank]; omega
    · simp at h
  | wakeSig =>
    simp only [step] at h; split at h
    · rename_i hp
      split at h
      · cases h
        refine ⟨?_, rfl, rfl, rfl⟩
        simp only [M, hp]; simp [rank]; omega
      · simp at h
    · simp at h
  | wakeOther =>
    simp only [step] at h; split at h
    · rename_i hp; cases h
      refine ⟨?_, rfl, rfl, rfl⟩
      simp only [M, hp]; simp [rank]; omega
    · simp at h
  | postWait =>
    simp only [step] at h; split at h
    · rename_i hp; cases h
      refine ⟨?_, rfl, rfl, rfl⟩
      simp only [M, hp]; simp [rank]; omega
    · simp at h
  | drain k =>
    simp only [step] at h; split at h
    · rename_i hp
      split at h
      · cases h
        refine ⟨?_, rfl, rfl, rfl⟩
        simp only [M, hp]; simp [rank]; omega
      · split at h
        · cases h
          refine ⟨?_, rfl, rfl, rfl⟩
          simp only [M, hp]; simp [rank]; omega
        · simp at h
    · simp at h

theorem executed_mono {s s' : St} {a : Act} (h : step s a = some s') : s.executed ≤ s'.executed := by
  cases a <;> simp only [step] at h <;> repeat' (split at h)
  all_goals first | (simp at h; done) | (cases h; simp [setT])

theorem runU_mono {s s' : St} {as : List Act} (h : runU s as = some s') : s.executed ≤ s'.executed := by
  induction as generalizing s with
  | nil => simp [runU] at h; simp [h]
  | cons a as ih =>
    simp only [runU] at h
    split at h
    · split at h
      · rename_i s1 h1; exact Nat.le_trans (executed_mono h1) (ih h)
      · simp at h
    · simp at h

/-- C45, no stall: a queue with pending functions (or asked to terminate) that has not left its loop always has a step it can take
with no help from new functions, timers or fd events. -/
theorem C45_never_stuck (s : St) (h : Reachable s) (hw : Work s) (hx : s.pc ≠ .exited) : ∃ a, unaided s a = true ∧ (step s a).isSome = true := by
  cases hp : s.pc with
  | work => exact ⟨.work 0 s.iofd, rfl, by simp [step, hp]⟩
  | chkTerm => exact ⟨.chkTerm, rfl, by simp [step, hp]⟩
  | cond => exact ⟨.cond .inf, rfl, by simp [step, hp]⟩
  | setNeed t => exact ⟨.setNeed, rfl, by simp [step, hp]⟩
  | rdTerm t => exact ⟨.rdTerm, rfl, by simp [step, hp]⟩
  | rdCount t => exact ⟨.rdCount, rfl, by simp [step, hp]⟩
  | clrNeed => exact ⟨.clrNeed, rfl, by simp [step, hp]⟩
  | rdKick => exact ⟨.rdKick, rfl, by simp [step, hp]⟩
  | preWait t => exact ⟨.preWait, rfl, by simp [step, hp]⟩
  | postWait => exact ⟨.postWait, rfl, by simp [step, hp]⟩
  | exited => exact absurd hp hx
  | drain =>
    cases he : s.event
    · exact ⟨.drain 0, rfl, by simp [step, hp, he]⟩
    · exact ⟨.drain 0, rfl, by simp [step, hp, he]⟩
  | waiting t =>
    by_cases hz : t = .zero
    · subst hz
      exact ⟨.wakeOther, by simp [unaided, hp], by simp [step, hp]⟩
    · rcases C45_no_lost_wakeup s h t hp hz hw with hs | ⟨u, p, hu, hne⟩
      · exact ⟨.wakeSig, rfl, by simp only [step, hp, hs, if_true, Option.isSome]⟩
      · obtain ⟨s1, hr, -⟩ := C45_kick_arrives s h t hp u p hu hne
        cases p with
        | idle => exact absurd rfl hne
        | kick => exact ⟨.rdNeed u, rfl, by simp [step, hu]⟩
        | inc => exact ⟨.incKick u, rfl, by simp [step, hu]⟩
        | wr =>
          simp only [run] at hr
          split at hr
          · rename_i s2 h2; exact ⟨.write u, rfl, by simp [h2]⟩
          · simp at hr

/-- C45, bounded: in every schedule of unaided steps of length `12 + 3 * (number of other threads)` or more, however the threads are
interleaved, all functions pending at the start have been executed.  By `C45_never_stuck` a schedule that is shorter can be
continued, unless the queue has left its loop, which it does only when asked to terminate (`C45_exit_only_terminated`; the remaining
functions are then run by the final drain: C42). -/
theorem C45_executed_bounded (s : St) (as : List Act) (s' : St) (h : runU s as = some s') (hl : 11 + 3 * s.thr.length < as.length) :
    s.executed + s.pend ≤ s'.executed := by
  have hm : M s < as.length := by
    have := psum_le s.thr
    have := rank_le s.pc
    unfold M; omega
  clear hl
  induction as generalizing s with
  | nil => simp at hm
  | cons a as ih =>
    simp only [runU] at h
    split at h
    · rename_i ha
      split at h
      · rename_i s1 h1
        cases hwk : isWork a
        · obtain ⟨k1, k2⟩ := unaided_step ha hwk h1
          have := ih s1 h (by simp at hm; omega)
          rw [k2.p, k2.x] at this
          exact this
        · have := runU_mono h
          cases a <;> simp [isWork] at hwk
          simp only [step] at h1
          split at h1
          · cases h1; exact this
          · simp at h1
      · simp at h
    · simp at h

/-- The loop is left only after termination was asked for. -/
theorem C45_exit_only_terminated (s : St) (h : Reachable s) (hx : s.pc = .exited) : s.term = true := by
  obtain ⟨n, e, c, acts, hc, h⟩ := h
  have key : ∀ (acts : List Act) (u : St), (u.pc = .exited → u.term = true) → run u acts = some s → s.term = true := by
    intro acts
    induction acts with
    | nil => intro u hu h; simp [run] at h; subst h; exact hu hx
    | cons a as ih =>
      intro u hu h
      simp only [run] at h
      split at h
      · rename_i u1 h1
        refine ih u1 ?_ h
        cases a <;> simp only [step] at h1 <;> repeat' (split at h1)
        all_goals first
          | (simp at h1; done)
          | (cases h1; simp_all [setT]; done)
          | (cases h1; simp only; split <;> simp_all)
      · simp at h
  exact key acts _ (by simp [init]) h

/-- The loop is left only if some thread has called destroy. -/
theorem C45_exit_only_destroyed (n : Nat) (e : Bool) (c : Nat) (acts : List Act) (s : St) (h : run (init n e c) acts = some s) (hx : s.pc = .exited) :
    ∃ t, Act.destroy t ∈ acts := by
  have key : ∀ (acts : List Act) (u : St), u.pc ≠ .exited → u.term = false → run u acts = some s → ∃ t, Act.destroy t ∈ acts := by
    intro acts
    induction acts with
    | nil => intro u hu _ h; simp [run] at h; subst h; exact absurd hx hu
    | cons a as ih =>
      intro u hu ht h
      simp only [run] at h
      split at h
      · rename_i u1 h1
        by_cases hd : ∃ t, a = .destroy t
        · obtain ⟨t, rfl⟩ := hd; exact ⟨t, List.mem_cons_self ..⟩
        · have : u1.pc ≠ .exited ∧ u1.term = false := by
            cases a <;> simp only [step] at h1 <;> repeat' (split at h1)
            all_goals first
              | (simp at h1; done)
              | (simp at hd; done)
              | (cases h1; simp_all [setT]; done)
              | (cases h1; simp only; split <;> simp_all)
          obtain ⟨t, h⟩ := ih u1 this.1 this.2 h
          exact ⟨t, List.mem_cons_of_mem _ h⟩
      · simp at h
  exact key acts _ (by simp [init]) (by simp [init]) h

/-- Once a thread has called destroy the queue is asked to terminate for good. -/
theorem C45_destroy_terminates (n : Nat) (e : Bool) (c : Nat) (acts : List Act) (s : St) (t : Nat) (h : run (init n e c) acts = some s) (hd : Act.destroy t ∈ acts) :
    s.term = true := by
  have mono : ∀ (u u1 : St) (a : Act), step u a = some u1 → (u.term = true → u1.term = true) ∧ (a = .destroy t → u1.term = true) := by
    intro u u1 a h1
    cases a <;> simp only [step] at h1 <;> repeat' (split at h1)
    all_goals first
      | (simp at h1; done)
      | (cases h1; simp [setT]; done)
  have key : ∀ (acts : List Act) (u : St), (u.term = true ∨ Act.destroy t ∈ acts) → run u acts = some s → s.term = true := by
    intro acts
    induction acts with
    | nil => intro u hu h; simp [run] at h; subst h; simpa using hu
    | cons a as ih =>
      intro u hu h
      simp only [run] at h
      split at h
      · rename_i u1 h1
        refine ih u1 ?_ h
        rcases hu with hu | hu
        · exact .inl ((mono u u1 a h1).1 hu)
        · rcases List.mem_cons.1 hu with e | e
          · exact .inl ((mono u u1 a h1).2 e.symm)
          · exact .inr e
      · simp at h
  exact key acts _ (.inr hd) h

/-- Asked to terminate and about to check it, the queue's thread leaves the loop. -/
theorem C45_terminates (s : St) (k i : Nat) (hp : s.pc = .work) (ht : s.term = true) :
    ∃ s', run s [.work k i, .chkTerm] = some s' ∧ s'.pc = .exited ∧ s'.executed = s.executed + s.pend :=
  ⟨{ s with pc := .exited, pend := k, iofd := i, executed := s.executed + s.pend }, by simp [run, step, hp, ht], rfl, rfl⟩

/-- How many functions an action adds. -/
def adds : Act → Nat
  | .add _ => 1
  | .work k _ => k
  | _ => 0

/-- C45: every function added has been executed or is still in the list; nothing else is executed. -/
theorem C45_conserved (n : Nat) (e : Bool) (c : Nat) (acts : List Act) (s : St) (h : run (init n e c) acts = some s) :
    s.executed + s.pend = (acts.map adds).sum := by
  have key : ∀ (acts : List Act) (u : St), run u acts = some s → s.executed + s.pend = u.executed + u.pend + (acts.map adds).sum := by
    intro acts
    induction acts with
    | nil => intro u h; simp [run] at h; subst h; simp
    | cons a as ih =>
      intro u h
      simp only [run] at h
      split at h
      · rename_i u1 h1
        rw [ih u1 h, List.map_cons, List.sum_cons]
        have : u1.executed + u1.pend = u.executed + u.pend + adds a := by
          cases a <;> simp only [step] at h1 <;> repeat' (split at h1)
          all_goals first
            | (simp at h1; done)
            | (cases h1; simp [setT, adds]; done)
            | (cases h1; simp [setT, adds]; omega)
        omega
      · simp at h
  simpa [init] using key acts _ h

/-! ## C118 -/

/-- The steps of one idle round of a queue that may sleep for `t`. -/
def idleRound (t : TO) (iofd : Nat) : List Act := [.work 0 iofd, .chkTerm, .cond t, .setNeed, .rdTerm, .rdCount, .preWait]

/-- **C118**: a queue that has nothing to run and may sleep goes to sleep, for exactly the time allowed and announcing it, in one round;
asleep with no signal pending, it takes no step by itself: only the end of the time, an fd event or another thread's kick wakes it. -/
theorem C118_idle_sleeps (s : St) (t : TO) (iofd : Nat) (hp : s.pc = .work) (ht : s.term = false) (hz : t ≠ .zero) :
    ∃ s', run s (idleRound t iofd) = some s' ∧ s'.pc = .waiting t ∧ s'.need = true ∧ s'.pend = 0 ∧ s'.sig = s.sig ∧
      ∀ a, (step s' a).isSome = true → (∃ k, a = .add k ∨ a = .destroy k ∨ a = .rdNeed k ∨ a = .incKick k ∨ a = .write k) ∨ a = .wakeOther ∨ (a = .wakeSig ∧ 0 < s.sig) := by
  refine ⟨{ s with pc := .waiting t, need := true, pend := 0, iofd := iofd, executed := s.executed + s.pend }, by simp [idleRound, run, step, hp, ht, hz], rfl, rfl, rfl, rfl, fun a ha => ?_⟩
  cases a <;> simp [step] at ha ⊢
  exact ha

/-- **C118**: in a sleep with no end the queue's thread stays in it as long as nobody else does anything. -/
theorem C118_stays_asleep (s s' : St) (acts : List Act) (hp : s.pc = .waiting .inf) (hs : s.sig = 0) (hth : ∀ (i : Nat) (p : PPc), s.thr[i]? = some p → p = .idle)
    (hq : ∀ a ∈ acts, (∀ k, a ≠ .add k ∧ a ≠ .destroy k) ∧ a ≠ .wakeOther) (h : run s acts = some s') : acts = [] ∧ s' = s := by
  cases acts with
  | nil => simp only [run] at h; cases h; exact ⟨rfl, rfl⟩
  | cons a as =>
    exfalso
    simp only [run] at h
    have hqa := hq a (List.mem_cons_self ..)
    have hn : step s a = none := by
      cases a <;> simp [step, hp, hs] at hqa ⊢
      all_goals
        split
        · rename_i hi; have := hth _ _ hi; simp at this
        · rfl
    rw [hn] at h
    cases h

example : ∃ s, run (init 2 false 4) [.add 0, .rdNeed 0] = some s ∧ s.pc = .work ∧ s.term = false ∧ s.pend = 1 := ⟨_, rfl, rfl, rfl, rfl⟩

/-- A blocked queue, three threads that add at the same time, a pipe of capacity 1 that the first byte fills. -/
def exActs : List Act :=
  [.work 0 0, .chkTerm, .cond .inf, .setNeed, .rdTerm, .rdCount, .preWait, .add 0, .add 1, .rdNeed 0, .rdNeed 1, .incKick 0, .incKick 1, .write 0, .write 1, .add 2]

def exSt : St := ((run (init 3 false 1) exActs).getD (init 0 false 1))

example : Reachable exSt ∧ exSt.pc = .waiting .inf ∧ Work exSt ∧ 0 < exSt.sig ∧ Kicking exSt ∧ exSt.pend = 3 := by
  refine ⟨⟨3, false, 1, exActs, by decide, by decide +kernel⟩, by decide +kernel, Or.inl (by decide +kernel), by decide +kernel, ⟨2, .kick, by decide +kernel, by simp⟩, by decide +kernel⟩

/-- A long unaided schedule from there: three functions executed, then idle rounds. -/
def exSched : List Act :=
  [.wakeSig, .postWait, .drain 1, .rdNeed 2, .work 0 0, .chkTerm, .cond .zero, .work 0 0, .chkTerm, .cond .zero, .work 0 0, .chkTerm, .cond .zero,
   .work 0 0, .chkTerm, .cond .zero, .work 0 0, .chkTerm, .cond .zero, .work 0 0, .chkTerm]

example : 11 + 3 * exSt.thr.length < exSched.length ∧ (runU exSt exSched).isSome = true ∧ ((runU exSt exSched).getD exSt).executed = 3 := by
  decide +kernel

/-- Just before the queue's thread sets `need_kicking` a producer adds and sees no need to kick: the recheck of `count` finds it. -/
example : ∃ s, run (init 1 true 1) [.work 0 0, .chkTerm, .cond .inf, .add 0, .rdNeed 0, .setNeed, .rdTerm, .rdCount] = some s ∧ s.pc = .clrNeed ∧ s.pend = 1 :=
  ⟨_, rfl, rfl, rfl⟩

/-- A terminated queue exits. -/
example : ∃ s, run (init 1 true 1) [.destroy 0, .work 0 0, .chkTerm] = some s ∧ s.pc = .exited ∧ s.term = true := ⟨_, rfl, rfl, rfl⟩

end Verif.Wakeup
