import Verif.TimerRef
/-! Theorems about timer reference counting: C33, C32 (race), C90, C91. -/
namespace Verif.TimerRef

/-- The counter counts the table's reference and one per call in flight; the timer is freed and its
    destructor has run once exactly when neither exists. -/
structure Inv (s : St) : Prop where
  usage : s.usage = s.installed.toNat + s.calls.length
  freed : s.freed = true ↔ s.usage = 0
  dtor : s.dtor = if s.freed then 1 else 0

theorem inv_init : Inv St.init := ⟨rfl, by simp [St.init], rfl⟩

theorem put_inv {s : St} (hu : s.usage = s.installed.toNat + s.calls.length + 1)
    (hf : s.freed = false) (hd : s.dtor = 0) : ∃ s', s.put = .ok s' ∧ Inv s' ∧
      s'.installed = s.installed ∧ s'.calls = s.calls ∧ s'.linked = s.linked := by
  unfold St.put
  simp only [hf, hu]
  by_cases h0 : s.installed.toNat + s.calls.length = 0
  · simp only [h0, Nat.zero_add, if_true]
    exact ⟨_, rfl, ⟨h0.symm, by simp, by simp [hd]⟩, rfl, rfl, rfl⟩
  · simp only [h0, if_false]
    exact ⟨_, rfl, ⟨rfl, ⟨fun h => absurd h (by simp [hf]), fun h => absurd h h0⟩, by simp [hd]⟩, rfl, rfl, rfl⟩

theorem killOnQ_inv {s : St} (h : Inv s) (hc : s.freed = false) : ∃ s', s.killOnQ = .ok s' ∧ Inv s' ∧
    s'.installed = false ∧ s'.calls = s.calls ∧ (s.installed = true → s'.linked = false) ∧
    (s.installed = false → s' = s) := by
  unfold St.killOnQ
  have hu := h.usage
  have hd := h.dtor
  simp [hc] at hd
  rw [if_neg (by simp [hc])]
  cases hi : s.installed with
  | false => exact ⟨s, by simp, h, hi, rfl, by simp, fun _ => rfl⟩
  | true =>
    simp only [if_true]
    rw [hi] at hu
    obtain ⟨s', h1, h2, h3, h4, h5⟩ := put_inv (s := { s with installed := false, linked := false })
      (by simp at hu ⊢; omega) hc hd
    exact ⟨s', h1, h2, h3, h4, fun _ => h5, by simp⟩

theorem length_eraseIdx_some {l : List Call} {i : Nat} {c : Call} (h : l[i]? = some c) :
    l.length = (l.eraseIdx i).length + 1 := by
  have := (List.getElem?_eq_some_iff.1 h).1
  rw [List.length_eraseIdx_of_lt this]; omega

theorem not_freed_of_call {s : St} (h : Inv s) {i : Nat} {c : Call} (hc : s.calls[i]? = some c) :
    s.freed = false := by
  have := (List.getElem?_eq_some_iff.1 hc).1
  have hu := h.usage
  cases hf : s.freed with
  | false => rfl
  | true => have := h.freed.1 hf; omega

theorem step_inv {s s' : St} (h : Inv s) {a : Act} (hs : s.step a = .ok s') : Inv s' := by
  cases a with
  | start k =>
    simp only [St.step] at hs
    cases hi : s.installed with
    | false => simp [hi] at hs; subst hs; exact h
    | true =>
      simp only [hi, if_true] at hs
      split at hs
      · simp at hs
      · rename_i hf
        simp at hs; subst hs
        have hu := h.usage
        rw [hi] at hu
        simp at hf
        have hd := h.dtor
        simp [hf] at hd
        exact ⟨by simp [hi] at hu ⊢; omega, by simp [hf], by simp [hd, hf]⟩
  | onq i =>
    simp only [St.step] at hs
    cases hc : s.calls[i]? with
    | none => simp [hc] at hs
    | some c =>
      simp only [hc] at hs
      have hf := not_freed_of_call h hc
      have h' : Inv { s with calls := s.calls.set i { c with done := true } } := by
        refine ⟨?_, h.freed, h.dtor⟩
        simpa using h.usage
      split at hs
      · simp at hs
      · cases hk : c.kind with
        | query => simp [hk] at hs
        | resched =>
          simp only [hk, hf] at hs; cases hs
          exact ⟨by simpa using h.usage, by simpa [hf] using h.freed, by simpa [hf] using h.dtor⟩
        | cancel =>
          simp only [hk, hf] at hs; cases hs
          exact ⟨by simpa using h.usage, by simpa [hf] using h.freed, by simpa [hf] using h.dtor⟩
        | kill =>
          simp only [hk] at hs
          obtain ⟨s2, e1, e2, _⟩ := killOnQ_inv h' (by exact hf)
          rw [hk] at e1; rw [e1] at hs; simp at hs; subst hs; exact e2
  | finish i =>
    simp only [St.step] at hs
    cases hc : s.calls[i]? with
    | none => simp [hc] at hs
    | some c =>
      simp only [hc] at hs
      have hf := not_freed_of_call h hc
      have hd := h.dtor
      simp [hf] at hd
      have hl := length_eraseIdx_some hc
      have hu := h.usage
      obtain ⟨s2, e1, e2, _⟩ := put_inv (s := { s with calls := s.calls.eraseIdx i })
        (by simp only; omega) hf hd
      rw [e1] at hs; simp at hs; subst hs; exact e2
  | fire again =>
    simp only [St.step] at hs
    split at hs
    · simp at hs
    · split at hs
      · split at hs
        · simp at hs
        · simp at hs; subst hs; exact ⟨h.usage, h.freed, h.dtor⟩
      · simp at hs
  | ret =>
    simp only [St.step] at hs
    split at hs
    · simp at hs; subst hs; exact ⟨h.usage, h.freed, h.dtor⟩
    · simp at hs
  | fini =>
    simp only [St.step] at hs
    split at hs
    · rename_i hi
      have hu := h.usage
      rw [hi] at hu
      have hf : s.freed = false := by
        cases hf : s.freed with
        | false => rfl
        | true => have := h.freed.1 hf; simp at hu; omega
      obtain ⟨s2, e1, e2, _⟩ := killOnQ_inv h hf
      rw [e1] at hs; simp at hs; subst hs; exact e2
    · simp at hs

theorem run_inv {s s' : St} (h : Inv s) {as : List Act} (hr : s.run as = .ok s') : Inv s' := by
  induction as generalizing s with
  | nil => simp [St.run] at hr; subst hr; exact h
  | cons a as ih =>
    simp only [St.run] at hr
    cases hs : s.step a with
    | ok s1 => rw [hs] at hr; exact ih (step_inv h hs) hr
    | no => rw [hs] at hr; simp at hr
    | ub => rw [hs] at hr; simp at hr

/-- C33. After any interleaving of API calls, queue functions and invocations: the destructor has run
    exactly once if the timer has been killed and no call holds it, and has not run otherwise; while a
    call holds the timer, or it has not been killed, it is not freed. -/
theorem C33_dtor_once {s : St} {as : List Act} (h : St.init.run as = .ok s) :
    s.dtor = (if s.installed = false ∧ s.calls = [] then 1 else 0) ∧
    (s.freed = true ↔ s.installed = false ∧ s.calls = []) := by
  have hi := run_inv inv_init h
  have hf : s.freed = true ↔ s.installed = false ∧ s.calls = [] := by
    rw [hi.freed, hi.usage]
    cases s.installed <;> simp
  refine ⟨?_, hf⟩
  rw [hi.dtor]
  by_cases h1 : s.installed = false ∧ s.calls = []
  · rw [if_pos h1, if_pos (hf.2 h1)]
  · rw [if_neg h1, if_neg (fun h => h1 (hf.1 h))]

/-- Two queries overlap a kill: the destructor runs when the last of them releases the timer. -/
example : ∃ s, St.init.run [.start .resched, .onq 0, .finish 0, .start .query, .start .kill, .start .query,
    .onq 1, .finish 1, .finish 0, .finish 0] = .ok s ∧ s.dtor = 1 ∧ s.freed = true := ⟨_, rfl, rfl, rfl⟩

/-- Once destroyed the destructor never runs again: every further step leaves the count at one. -/
theorem C33_dead_stays_dead {s s' : St} {as bs : List Act} (h : St.init.run as = .ok s)
    (hd : s.dtor = 1) (hr : s.run bs = .ok s') : s'.dtor = 1 := by
  have hi := run_inv inv_init h
  have hgen : ∀ {s s' : St} (bs : List Act), Inv s → s.freed = true → s.run bs = .ok s' → s'.freed = true := by
    intro s s' bs
    induction bs generalizing s with
    | nil => intro h1 h2 h3; simp [St.run] at h3; subst h3; exact h2
    | cons b bs ih =>
      intro h1 h2 h3
      simp only [St.run] at h3
      have hu := h1.usage
      have h0 := h1.freed.1 h2
      have hinst : s.installed = false := by
        cases hh : s.installed with
        | false => rfl
        | true => rw [hh] at hu; simp at hu; omega
      have hcalls : s.calls = [] := by
        cases hh : s.calls with
        | nil => rfl
        | cons c cs => rw [hh] at hu; simp at hu; omega
      cases hs : s.step b with
      | no => rw [hs] at h3; simp at h3
      | ub => rw [hs] at h3; simp at h3
      | ok s1 =>
        rw [hs] at h3
        refine ih (step_inv h1 hs) ?_ h3
        cases b with
        | start k => simp [St.step, hinst] at hs; subst hs; exact h2
        | onq i => simp [St.step, hcalls] at hs
        | finish i => simp [St.step, hcalls] at hs
        | fire again =>
          simp only [St.step, h2] at hs
          split at hs
          · simp at hs
          · split at hs <;> simp at hs
        | ret =>
          simp only [St.step] at hs
          split at hs
          · simp at hs; subst hs; exact h2
          · simp at hs
        | fini => simp [St.step, hinst] at hs
  have hf : s.freed = true := by
    have := hi.dtor
    rw [hd] at this
    cases hh : s.freed with
    | true => rfl
    | false => rw [hh] at this; simp at this
  have h1 := hgen bs hi hf hr
  have := (run_inv hi hr).dtor
  rw [h1] at this
  exact this

/-! ## C90 and the race in C32 -/

/-- C90 is false: a reschedule that obtained the timer before a kill and reaches the queue after it puts
    the killed timer back into the timer base; when the rescheduling call returns the timer is freed
    while linked, and the next run loop uses freed memory. -/
theorem C90_uaf : St.init.run [.start .resched, .start .kill, .onq 1, .finish 1, .onq 0, .finish 0]
      = .ok ⟨false, 0, true, true, 1, false, []⟩ ∧
    St.init.run [.start .resched, .start .kill, .onq 1, .finish 1, .onq 0, .finish 0, .fire false] = .ub := by
  constructor <;> rfl

/-- The same race breaks C32: after aosl_mpq_kill_timer has returned (its call is finished) the callback
    is invoked. -/
theorem C32_kill_race : ∃ s, St.init.run [.start .resched, .start .kill, .onq 1, .finish 1, .onq 0] = .ok s ∧
    s.installed = false ∧ s.calls = [⟨.resched, true⟩] ∧ ∃ s', s.step (.fire false) = .ok s' :=
  ⟨_, rfl, rfl, rfl, _, rfl⟩

/-- Reschedules and cancels reach the queue only while the timer is not killed. -/
def Orderly : St → List Act → Prop
  | _, [] => True
  | s, a :: as => (∀ i, a = .onq i → s.calls[i]?.map (·.kind) = some .resched → s.installed = true) ∧
      ∀ s', s.step a = .ok s' → Orderly s' as

structure Inv2 (s : St) : Prop extends Inv s where
  linked : s.linked = true → s.installed = true

theorem step_inv2 {s : St} (h : Inv2 s) {a : Act}
    (ho : ∀ i, a = .onq i → s.calls[i]?.map (·.kind) = some .resched → s.installed = true) :
    s.step a = .no ∨ ∃ s', s.step a = .ok s' ∧ Inv2 s' := by
  have hnf : s.installed = true → s.freed = false := by
    intro hi
    have hu := h.usage
    rw [hi] at hu
    cases hf : s.freed with
    | false => rfl
    | true => have := h.freed.1 hf; simp at hu; omega
  have main : s.step a = .no ∨ ∃ s', s.step a = .ok s' ∧ (s'.linked = true → s'.installed = true) := by
    cases a with
    | start k =>
      simp only [St.step]
      cases hi : s.installed with
      | false =>
        refine Or.inr ⟨s, by simp, fun hl => ?_⟩
        have := h.linked hl
        exact h.linked hl
      | true => simp only [if_true, hnf hi]; exact Or.inr ⟨_, rfl, fun _ => rfl⟩
    | onq i =>
      simp only [St.step]
      cases hc : s.calls[i]? with
      | none => simp
      | some c =>
        have hf := not_freed_of_call h.toInv hc
        have ho' := ho i rfl
        rw [hc] at ho'
        simp only
        split
        · left; trivial
        · cases hk : c.kind with
          | query => simp
          | resched =>
            simp only [hf]
            exact Or.inr ⟨_, rfl, fun _ => ho' (by simp [hk])⟩
          | cancel => simp only [hf]; exact Or.inr ⟨_, rfl, by simp⟩
          | kill =>
            simp only
            have h' : Inv { s with calls := s.calls.set i { c with done := true } } := by
              refine ⟨?_, h.freed, h.dtor⟩
              simpa using h.usage
            obtain ⟨s2, e1, e2, e3, e4, e5, e6⟩ := killOnQ_inv h' (by exact hf)
            rw [hk] at e1
            refine Or.inr ⟨s2, e1, fun hl => ?_⟩
            cases hi : s.installed with
            | true => rw [e5 hi] at hl; simp at hl
            | false =>
              rw [e6 hi] at hl
              have := h.linked hl
              rw [hi] at this; simp at this
    | finish i =>
      simp only [St.step]
      cases hc : s.calls[i]? with
      | none => simp
      | some c =>
        have hf := not_freed_of_call h.toInv hc
        have hd := h.dtor
        simp [hf] at hd
        have hl := length_eraseIdx_some hc
        have hu := h.usage
        obtain ⟨s2, e1, e2, e3, e4, e5⟩ := put_inv (s := { s with calls := s.calls.eraseIdx i })
          (by simp only; omega) hf hd
        refine Or.inr ⟨s2, e1, ?_⟩
        rw [e3, e5]; exact h.linked
    | fire again =>
      simp only [St.step]
      split
      · left; trivial
      · split
        · rename_i hl
          have hi := h.linked hl
          simp only [hnf hi]
          exact Or.inr ⟨_, rfl, fun _ => hi⟩
        · left; trivial
    | ret =>
      simp only [St.step]
      split
      · exact Or.inr ⟨_, rfl, h.linked⟩
      · left; trivial
    | fini =>
      simp only [St.step]
      split
      · rename_i hi
        obtain ⟨s2, e1, e2, e3, e4, e5, e6⟩ := killOnQ_inv h.toInv (hnf hi)
        refine Or.inr ⟨s2, e1, fun hl => ?_⟩
        rw [e5 hi] at hl; simp at hl
      · left; trivial
  rcases main with hm | ⟨s', h1, h2⟩
  · exact Or.inl hm
  · exact Or.inr ⟨s', h1, ⟨step_inv h.toInv h1, h2⟩⟩

/-- C90, what holds: if no reschedule reaches the queue after the kill, no interleaving touches a freed
    timer, and the timer base only holds timers that are not killed. -/
theorem C90_safe_partial (as : List Act) (ho : Orderly St.init as) :
    St.init.run as ≠ .ub ∧ ∀ s, St.init.run as = .ok s → s.linked = true → s.freed = false ∧ s.installed = true := by
  have gen : ∀ (as : List Act) (s : St), Inv2 s → Orderly s as →
      s.run as = .no ∨ ∃ s', s.run as = .ok s' ∧ Inv2 s' := by
    intro as
    induction as with
    | nil => intro s h _; exact Or.inr ⟨s, rfl, h⟩
    | cons a as ih =>
      intro s h ho
      simp only [St.run]
      rcases step_inv2 h ho.1 with h1 | ⟨s1, h1, h2⟩
      · left; rw [h1]
      · rw [h1]; exact ih s1 h2 (ho.2 s1 h1)
  rcases gen as St.init ⟨inv_init, by simp [St.init]⟩ ho with h | ⟨s', h, h2⟩
  · rw [h]; simp
  · rw [h]
    refine ⟨by simp, ?_⟩
    intro s hs hl
    simp at hs; subst hs
    have hi := h2.linked hl
    refine ⟨?_, hi⟩
    have hu := h2.usage
    rw [hi] at hu
    cases hf : s'.freed with
    | false => rfl
    | true => have := h2.freed.1 hf; simp at hu; omega

/-- An orderly run with overlapping calls, a kill, and an invocation. -/
example : Orderly St.init [.start .resched, .start .query, .onq 0, .fire true, .start .kill, .ret, .onq 2,
    .finish 0, .finish 0, .finish 0] ∧
    ∃ s, St.init.run [.start .resched, .start .query, .onq 0, .fire true, .start .kill, .ret, .onq 2,
    .finish 0, .finish 0, .finish 0] = .ok s ∧ s.dtor = 1 := by
  refine ⟨?_, _, rfl, rfl⟩
  repeat' first
    | trivial
    | (refine And.intro (by simp [St.init]) ?_; intro s' hs; cases hs)
    | (refine And.intro ?_ ?_)
    | (intro s' hs; cases hs)
    | (intro i hi; cases hi; simp [St.init])

/-! ## C91 -/

/-- C91 is false: a callback that kills its own timer runs on with its arguments freed and its
    destructor already executed. -/
theorem C91_freed_in_callback : ∃ s, St.init.run [.start .resched, .onq 0, .finish 0, .fire true,
    .start .kill, .onq 0, .finish 0] = .ok s ∧ s.inCb = true ∧ s.freed = true ∧ s.dtor = 1 :=
  ⟨_, rfl, rfl, rfl, rfl⟩

/-- C91, what holds: a callback that does not lead to the timer's killing keeps it (in any run, while the
    timer is not killed it is not freed, in callbacks or elsewhere). -/
theorem C91_partial {s : St} {as : List Act} (h : St.init.run as = .ok s) (hk : s.installed = true) :
    s.freed = false ∧ s.dtor = 0 := by
  obtain ⟨h1, h2⟩ := C33_dtor_once h
  constructor
  · cases hf : s.freed with
    | false => rfl
    | true => rw [hk] at h2; simp at h2; rw [h2] at hf; simp at hf
  · rw [h1, hk]; simp

example : ∃ s, St.init.run [.start .resched, .onq 0, .finish 0, .fire true] = .ok s ∧ s.installed = true ∧
    s.inCb = true := ⟨_, rfl, rfl, rfl⟩


/-! ## When the callback of the timer can run -/

/-- The step is not the execution of a call on the queue. -/
def NotOnq : Act → Prop
  | .onq _ => False
  | _ => True

theorem unlinked_run : ∀ (as : List Act) (s s' : St), s.linked = false → (∀ a ∈ as, NotOnq a) → s.run as = .ok s' →
    s'.linked = false ∧ ∀ b, Act.fire b ∉ as := by
  intro as
  induction as with
  | nil => intro s s' h _ hr; simp only [St.run] at hr; cases hr; exact ⟨h, by simp⟩
  | cons a as ih =>
    intro s s' h hn hr
    simp only [St.run] at hr
    have hna := hn a (List.mem_cons_self ..)
    have hst : ∀ s1, s.step a = .ok s1 → s1.linked = false ∧ ∀ b, a ≠ .fire b := by
      intro s1 h1
      cases a <;> simp only [St.step, St.killOnQ, St.put] at h1 <;> repeat' (split at h1)
      all_goals first
        | (exact hna.elim)
        | (cases h1; done)
        | (cases h1; simp_all; done)
        | (simp_all; done)
    split at hr
    · rename_i s1 h1
      obtain ⟨k1, k2⟩ := hst s1 h1
      obtain ⟨j1, j2⟩ := ih s1 s' k1 (fun b hb => hn b (List.mem_cons_of_mem _ hb)) hr
      refine ⟨j1, fun b hb => ?_⟩
      rcases List.mem_cons.1 hb with e | e
      · exact k2 b e.symm
      · exact j2 b e
    · cases hr
    · cases hr

/-- A timer that has been created does not fire before a call has set it on the queue. -/
theorem C33_no_fire_before_set (as : List Act) (s : St) (hn : ∀ a ∈ as, NotOnq a) (h : St.init.run as = .ok s) : ∀ b, Act.fire b ∉ as :=
  (unlinked_run as St.init s rfl hn h).2

/-- A one-shot timer that has fired does not fire again unless a call sets it again on the queue; its callback is entered at once, and while it
runs it is not entered a second time. -/
theorem C33_oneshot_once (s s' s'' : St) (as : List Act) (h : s.step (.fire false) = .ok s') (hn : ∀ a ∈ as, NotOnq a) (hr : s'.run as = .ok s'') :
    s'.inCb = true ∧ ∀ b, Act.fire b ∉ as := by
  simp only [St.step] at h
  repeat' (split at h)
  all_goals first
    | (cases h; done)
    | skip
  cases h
  exact ⟨rfl, (unlinked_run as _ s'' rfl hn hr).2⟩

/-- While the callback runs the timer does not fire, whatever other threads do; after its return a periodic timer that nobody has killed or cancelled fires again. -/
theorem C33_callback_not_reentered (s : St) (b : Bool) : (s.inCb = true → s.step (.fire b) = .no) ∧
    (∀ s1, s.step (.fire true) = .ok s1 → ∃ s2 s3, s1.step .ret = .ok s2 ∧ s2.inCb = false ∧ s2.step (.fire b) = .ok s3 ∧ s3.inCb = true ∧ s3.linked = b) := by
  refine ⟨fun h => by simp [St.step, h], fun s1 h => ?_⟩
  simp only [St.step] at h
  repeat' (split at h)
  all_goals first
    | (cases h; done)
    | skip
  rename_i h1 h2 h3
  cases h
  refine ⟨{ s with linked := true, inCb := false }, { s with linked := b, inCb := true }, rfl, rfl, ?_, rfl, rfl⟩
  simp [St.step, h3]

/-- A one-shot timer that is set, fires, returns, and is queried meanwhile. -/
example : ∃ s' s'', (St.init.run [.start .resched, .onq 0, .finish 0] = .ok ⟨true, 1, true, false, 0, false, []⟩) ∧
    (⟨true, 1, true, false, 0, false, []⟩ : St).step (.fire false) = .ok s' ∧ s'.run [.start .query, .ret, .finish 0] = .ok s'' := ⟨_, _, rfl, rfl, rfl⟩

end Verif.TimerRef
