import Verif.StatLock

/-! Properties of `StatLock`: C187. -/

namespace Verif.StatLock

/-- Specification: who has the lock, from what the calls returned alone. -/
def holders : List Ret → List Nat
  | rs => rs.foldl (fun l r => match r.c, r.ok with
    | .lock, true => r.t :: l
    | .trylock, true => r.t :: l
    | .unlock, true => l.erase r.t
    | _, _ => l) []

def busy : PC → Bool
  | .hal _ => true | .pubOk _ => true | .pubErr _ => true | _ => false

def callOf : PC → Option Call
  | .out => none
  | .read c => some c | .cas c => some c | .hal c => some c | .pubOk c => some c | .pubErr c => some c | .spin c _ => some c | .go c => some c

structure Inv (s : St) : Prop where
  ub : s.ub = false
  has : s.has = match s.obj with | some (some t) => [t] | _ => []
  un : s.word = .uninit → s.obj = none ∧ ∀ t, busy (s.pc t) = false
  ing : s.word = .initializing → ∃ t, (∀ u, busy (s.pc u) = true → u = t) ∧ ((∃ c, s.pc t = .hal c ∧ s.obj = none) ∨ (∃ c, s.pc t = .pubOk c ∧ s.obj = some none))
  ed : s.word = .initialized → s.obj ≠ none ∧ ∀ t, busy (s.pc t) = false
  go : ∀ t c, s.pc t = .go c → s.word = .initialized
  spin : ∀ t c n, s.pc t = .spin c n → s.word ≠ .uninit
  unl : ∀ t, callOf (s.pc t) = some .unlock → t ∈ s.has
  lk : ∀ t, callOf (s.pc t) = some .lock ∨ callOf (s.pc t) = some .trylock → t ∉ s.has

theorem init_inv : Inv St.init := by
  constructor <;> simp [St.init, busy, callOf]

/-- The failure of aosl_hal_static_mutex_init is excluded. -/
def NoErr (p : Port) (a : Act) : Prop := canFail p = false ∨ ∀ t, a ≠ .go t false

theorem step_inv (p : Port) (hp : inPlace p = true) (s s' : St) (idle : Bool) (hid : idle = true → ∀ t, s.pc t = .out) (a : Act) (ha : NoErr p a) (hi : Inv s) (h : step p s idle a = some s') : Inv s' := by
  obtain ⟨i1, i2, i3, i4, i5, i6, i7, i8, i9⟩ := hi
  cases a with
  | call t c =>
    simp only [step, i1, Bool.false_eq_true, if_false] at h
    split at h
    · rename_i hc
      cases h
      constructor <;> simp only [upd]
      · exact i2
      · grind [busy]
      · intro hw
        obtain ⟨u, h1, h2⟩ := i4 hw
        refine ⟨u, ?_, ?_⟩ <;> grind [busy]
      · grind [busy]
      · grind
      · grind
      · intro u; grind [callOf, may]
      · intro u; grind [callOf, may]
    · cases h
  | go t ok =>
    simp only [step, i1, Bool.false_eq_true, if_false, go] at h
    cases hpc : s.pc t with
    | out => simp only [hpc] at h; cases h
    | read c =>
      simp only [hpc] at h; cases h
      constructor <;> simp only [upd]
      · exact i2
      · grind [busy]
      · intro hw
        obtain ⟨u, h1, h2⟩ := i4 hw
        refine ⟨u, ?_, ?_⟩ <;> grind [busy]
      · grind [busy]
      · grind
      · grind
      · intro u; grind [callOf]
      · intro u; grind [callOf]
    | cas c =>
      simp only [hpc] at h
      cases hw : s.word with
      | uninit =>
        simp only [hw] at h; cases h
        constructor <;> simp only [upd]
        · exact i2
        · grind
        · intro _; refine ⟨t, ?_, ?_⟩ <;> grind [busy]
        · grind
        · grind
        · grind
        · intro u; grind [callOf]
        · intro u; grind [callOf]
      | initializing =>
        simp only [hw] at h; cases h
        constructor <;> simp only [upd]
        · exact i2
        · grind
        · intro _
          obtain ⟨u, h1, h2⟩ := i4 hw
          refine ⟨u, ?_, ?_⟩ <;> grind [busy]
        · grind
        · grind
        · grind
        · intro u; grind [callOf]
        · intro u; grind [callOf]
      | initialized =>
        simp only [hw] at h; cases h
        constructor <;> simp only [upd]
        · exact i2
        · grind
        · grind
        · grind [busy]
        · grind
        · grind
        · intro u; grind [callOf]
        · intro u; grind [callOf]
    | hal c =>
      have hw : s.word = .initializing := by
        cases hw : s.word with
        | uninit => have := (i3 hw).2 t; simp [hpc, busy] at this
        | initialized => have := (i5 hw).2 t; simp [hpc, busy] at this
        | initializing => rfl
      have hok : ok = true := by
        simp only [hpc] at h
        rcases ha with ha | ha
        · cases ok
          · simp [ha] at h
          · rfl
        · cases ok
          · exact absurd rfl (ha t)
          · rfl
      subst hok
      simp only [hpc, if_true, hp] at h
      cases h
      obtain ⟨u, h1, h2⟩ := i4 hw
      have hu : t = u := h1 t (by simp [hpc, busy])
      subst hu
      have hob : s.obj = none := by
        rcases h2 with ⟨c', e, h2⟩ | ⟨c', e, h2⟩
        · exact h2
        · rw [hpc] at e; cases e
      have hh : s.has = [] := by rw [i2, hob]
      constructor <;> simp only [upd]
      · exact hh
      · grind
      · intro _; refine ⟨t, ?_, ?_⟩ <;> grind [busy]
      · grind
      · grind
      · grind
      · intro u; grind [callOf]
      · intro u; grind [callOf]
    | pubOk c =>
      have hw : s.word = .initializing := by
        cases hw : s.word with
        | uninit => have := (i3 hw).2 t; simp [hpc, busy] at this
        | initialized => have := (i5 hw).2 t; simp [hpc, busy] at this
        | initializing => rfl
      simp only [hpc] at h
      cases h
      obtain ⟨u, h1, h2⟩ := i4 hw
      have hu : t = u := h1 t (by simp [hpc, busy])
      subst hu
      have hob : s.obj = some none := by
        rcases h2 with ⟨c', e, h2⟩ | ⟨c', e, h2⟩
        · rw [hpc] at e; cases e
        · exact h2
      constructor <;> simp only [upd]
      · exact i2
      · grind
      · grind
      · intro _; refine ⟨by simp [hob], ?_⟩; grind [busy]
      · grind
      · grind
      · intro u; grind [callOf]
      · intro u; grind [callOf]
    | pubErr c =>
      exfalso
      cases hw : s.word with
      | uninit => have := (i3 hw).2 t; simp [hpc, busy] at this
      | initialized => have := (i5 hw).2 t; simp [hpc, busy] at this
      | initializing =>
        obtain ⟨u, h1, h2⟩ := i4 hw
        have hu : t = u := h1 t (by simp [hpc, busy])
        subst hu
        rcases h2 with ⟨c', e, _⟩ | ⟨c', e, _⟩ <;> rw [hpc] at e <;> cases e
    | spin c n =>
      simp only [hpc] at h
      split at h
      · rename_i hw
        obtain ⟨u, h1, h2⟩ := i4 hw
        split at h
        · cases h
          constructor <;> simp only [upd, St.ret]
          · exact i1
          · exact i2
          · grind
          · intro _; refine ⟨u, ?_, ?_⟩ <;> grind [busy]
          · grind
          · grind
          · grind
          · intro u; grind [callOf]
          · intro u; grind [callOf]
        · cases h
          constructor <;> simp only [upd]
          · exact i2
          · grind
          · intro _; refine ⟨u, ?_, ?_⟩ <;> grind [busy]
          · grind
          · grind
          · grind
          · intro u; grind [callOf]
          · intro u; grind [callOf]
      · rename_i hw
        have hw' : s.word = .initialized := by
          have := i7 t c n hpc
          cases h : s.word <;> simp_all
        cases h
        constructor <;> simp only [upd]
        · exact i2
        · grind
        · grind
        · grind [busy]
        · grind
        · grind
        · intro u; grind [callOf]
        · intro u; grind [callOf]
    | go c =>
      have hw := i6 t c hpc
      obtain ⟨hob, hb⟩ := i5 hw
      have fin : ∀ (b : Bool) (o : Option (Option Nat)) (l : List Nat) (r : List Ret), b = false → o ≠ none → (l = match o with | some (some t) => [t] | _ => []) →
          (∀ u, u ≠ t → callOf (s.pc u) = some .unlock → u ∈ l) → (∀ u, u ≠ t → callOf (s.pc u) = some .lock ∨ callOf (s.pc u) = some .trylock → u ∉ l) →
          Inv ⟨s.word, o, upd s.pc t .out, l, r, b⟩ := by
        intro b o l r hb0 ho hl h1 h2
        constructor <;> simp only [upd]
        · exact hb0
        · exact hl
        · grind
        · grind
        · grind [busy]
        · grind
        · grind
        · intro u; grind [callOf]
        · intro u; grind [callOf]
      cases c with
      | init =>
        simp only [hpc] at h; cases h
        exact fin _ _ _ _ i1 hob i2 (fun u _ => i8 u) (fun u _ => i9 u)
      | lock =>
        simp only [hpc] at h
        split at h
        · contradiction
        · rename_i ho; cases h
          have hh : s.has = [] := by rw [i2, ho]
          refine fin _ _ _ _ rfl (by simp) (by rw [hh]) ?_ ?_
          · intro u hu e; have := i8 u e; rw [hh] at this; cases this
          · intro u hu e; rw [hh]; simp [hu]
        · cases h
      | trylock =>
        simp only [hpc] at h
        split at h
        · contradiction
        · rename_i ho; cases h
          have hh : s.has = [] := by rw [i2, ho]
          refine fin _ _ _ _ rfl (by simp) (by rw [hh]) ?_ ?_
          · intro u hu e; have := i8 u e; rw [hh] at this; cases this
          · intro u hu e; rw [hh]; simp [hu]
        · cases h
          exact fin _ _ _ _ i1 hob i2 (fun u _ => i8 u) (fun u _ => i9 u)
      | unlock =>
        simp only [hpc] at h
        have ht : t ∈ s.has := i8 t (by rw [hpc]; rfl)
        cases ho : s.obj with
        | none => exact absurd ho hob
        | some w =>
          cases w with
          | none => rw [i2, ho] at ht; cases ht
          | some u =>
            have hu : t = u := by rw [i2, ho] at ht; simpa using ht
            subst hu
            simp only [ho, if_true] at h
            cases h
            have hh : s.has = [t] := by rw [i2, ho]
            refine fin _ _ _ _ rfl (by simp) (by rw [hh]; simp) ?_ ?_
            · intro u hu e; have := i8 u e; rw [hh] at this; simp [hu] at this
            · intro u hu e; rw [hh]; simp
  | fini t =>
    simp only [step, i1, Bool.false_eq_true, if_false] at h
    split at h
    · rename_i hc
      have hout := hid hc.1
      cases h
      split
      · constructor <;> simp [hout, busy, callOf, hc.2, i1]
      · exact ⟨i1, i2, i3, i4, i5, i6, i7, i8, i9⟩
    · cases h

theorem run_inv (p : Port) (hp : inPlace p = true) (as : List Act) (s s' : St) (ha : ∀ a ∈ as, NoErr p a) (hi : Inv s) (r : Run p s as s') : Inv s' := by
  induction r with
  | nil => exact hi
  | cons idle hid h r ih => exact ih (fun a h => ha a (List.mem_cons_of_mem _ h)) (step_inv p hp _ _ idle hid _ (ha _ List.mem_cons_self) hi h)

/-- `has` is what the results say. -/
theorem has_step (p : Port) (s s' : St) (idle : Bool) (a : Act) (hi : s.has = holders s.rets) (h : step p s idle a = some s') : s'.has = holders s'.rets := by
  cases a with
  | call t c => simp only [step] at h; split at h <;> try split at h
                all_goals first | cases h; done | (cases h; exact hi)
  | fini t => simp only [step] at h; split at h <;> try split at h
              all_goals first | cases h; done | (cases h; split <;> exact hi)
  | go t ok =>
    simp only [step, go] at h
    repeat' split at h
    all_goals first
      | (cases h; done)
      | (cases h; exact hi)
      | (cases h; simp only [St.ret, holders, List.foldl_append, List.foldl_cons, List.foldl_nil] at hi ⊢; rw [← hi])
      | (cases h; simp only [St.ret, holders, List.foldl_append, List.foldl_cons, List.foldl_nil] at hi ⊢; split <;> simp_all)

theorem has_run (p : Port) (as : List Act) (s s' : St) (hi : s.has = holders s.rets) (r : Run p s as s') : s'.has = holders s'.rets := by
  induction r with
  | nil => exact hi
  | cons idle hid h r ih => exact ih (has_step p _ _ idle _ hi h)

/-- No thread looks more than a hundred times and goes on. -/
theorem looks_run (p : Port) (as : List Act) (s s' : St) (hi : ∀ t c n, s.pc t = .spin c n → n ≤ 100) (r : Run p s as s') : ∀ t c n, s'.pc t = .spin c n → n ≤ 100 := by
  induction r with
  | nil => exact hi
  | @cons s s1 s2 a as idle hid h r ih =>
    apply ih
    cases a with
    | call t c =>
      simp only [step] at h
      split at h <;> try split at h
      all_goals first | (cases h; done) | (cases h; simp only [upd]; grind)
    | fini t =>
      simp only [step] at h
      split at h <;> try split at h
      all_goals first | (cases h; done) | (cases h; split <;> exact hi)
    | go t ok =>
      simp only [step, go] at h
      repeat' split at h
      all_goals first | (cases h; done) | (cases h; exact hi) | (cases h; simp only [upd, St.ret]; grind)

/-! ## The theorems -/

/-- Everything a history allows: executable runs in which aosl_static_lock_fini is not called. -/
def play (p : Port) : St → List Act → Option St
  | s, [] => some s
  | s, a :: as => match step p s false a with
    | some s' => play p s' as
    | none => none

theorem play_run (p : Port) (as : List Act) (s s' : St) (h : play p s as = some s') : Run p s as s' := by
  induction as generalizing s with
  | nil => cases h; exact .nil _
  | cons a as ih =>
    simp only [play] at h
    split at h
    · rename_i s1 h1; exact .cons false (by simp) h1 (ih s1 h)
    · cases h

/-- C187 where aosl_hal_static_mutex_init makes a mutex in the lock (linux, darwin, harmony, esp32, bk725x, tw82x, windows, xr872) and does not fail: in every interleaving of any number of threads,
first use included, no call meets bytes that are no mutex, and going by what the calls returned at most one thread has the lock. -/
theorem C187_excludes_partial (p : Port) (hp : inPlace p = true) (as : List Act) (s : St) (ha : ∀ a ∈ as, NoErr p a) (r : Run p St.init as s) :
    s.ub = false ∧ (holders s.rets).length ≤ 1 := by
  have hi := run_inv p hp as _ _ ha init_inv r
  have hh := has_run p as _ _ (by rfl) r
  refine ⟨hi.ub, ?_⟩
  rw [← hh, hi.has]
  split <;> simp

/-- C187: what a call that comes back at this step tells.  A lock or trylock that succeeds found nobody else with the lock; a trylock that fails found another thread with it, or had given up waiting for
the first user after a hundred looks; a lock, an unlock or an init fails only by giving up so. -/
theorem C187_result_partial (p : Port) (hp : inPlace p = true) (as : List Act) (s s' : St) (ha : ∀ a ∈ as, NoErr p a) (r : Run p St.init as s) (idle : Bool) (t : Nat) (ok : Bool)
    (hn : NoErr p (.go t ok)) (h : step p s idle (.go t ok) = some s') (c : Call) (b : Bool) (hr : s'.rets = s.rets ++ [⟨t, c, b⟩]) :
    (b = true → c = .lock ∨ c = .trylock → holders s.rets = []) ∧
    (b = true → c = .unlock → holders s.rets = [t]) ∧
    (b = false → s.pc t = .spin c 100 ∧ s.word = .initializing ∨ c = .trylock ∧ ∃ u, u ≠ t ∧ holders s.rets = [u]) := by
  have hi := run_inv p hp as _ _ ha init_inv r
  have hh := has_run p as _ _ (by rfl) r
  rw [← hh]
  have hsp := looks_run p as _ _ (by intro t c n e; simp [St.init] at e) r
  obtain ⟨i1, i2, i3, i4, i5, i6, i7, i8, i9⟩ := hi
  have hlast : ∀ (x : Ret), s.rets ++ [x] = s.rets ++ [⟨t, c, b⟩] → x = ⟨t, c, b⟩ := by
    intro x e; have := List.append_cancel_left e; simpa using this
  have hno : s.rets = s.rets ++ [⟨t, c, b⟩] → False := by
    intro e; have := congrArg List.length e; simp at this
  simp only [step, i1, Bool.false_eq_true, if_false, go] at h
  cases hpc : s.pc t with
  | out => simp only [hpc] at h; cases h
  | read c => simp only [hpc] at h; cases h; exact absurd hr hno
  | cas c => simp only [hpc] at h; split at h <;> (cases h; exact absurd hr hno)
  | hal c =>
    simp only [hpc] at h
    repeat' split at h
    all_goals first | (cases h; done) | (cases h; exact absurd hr hno)
  | pubOk c => simp only [hpc] at h; cases h; exact absurd hr hno
  | pubErr c =>
    exfalso
    cases hw : s.word with
    | uninit => have := (i3 hw).2 t; simp [hpc, busy] at this
    | initialized => have := (i5 hw).2 t; simp [hpc, busy] at this
    | initializing =>
      obtain ⟨u, h1, h2⟩ := i4 hw
      have hu : t = u := h1 t (by simp [hpc, busy])
      subst hu
      rcases h2 with ⟨c', e, _⟩ | ⟨c', e, _⟩ <;> rw [hpc] at e <;> cases e
  | spin c' n =>
    simp only [hpc] at h
    split at h
    · rename_i hw
      split at h
      · rename_i hn
        cases h; have := hlast _ hr; cases this
        have := hsp t c n hpc
        have hn : n = 100 := by omega
        subst hn
        exact ⟨by simp, by simp, fun _ => Or.inl ⟨rfl, hw⟩⟩
      · cases h; exact absurd hr hno
    · cases h; exact absurd hr hno
  | go c' =>
    have hw := i6 t c' hpc
    obtain ⟨hob, _⟩ := i5 hw
    cases c' with
    | init => simp only [hpc] at h; cases h; have := hlast _ hr; cases this; simp
    | lock =>
      simp only [hpc] at h
      split at h
      · contradiction
      · rename_i ho; cases h; have := hlast _ hr; cases this; rw [i2, ho]; simp
      · cases h
    | trylock =>
      have ht := i9 t (Or.inr (by rw [hpc]; rfl))
      simp only [hpc] at h
      split at h
      · contradiction
      · rename_i ho; cases h; have := hlast _ hr; cases this; rw [i2, ho]; simp
      · rename_i u ho; cases h; have := hlast _ hr; cases this
        rw [i2, ho] at ht ⊢
        refine ⟨by simp, by simp, fun _ => Or.inr ⟨rfl, u, ?_, rfl⟩⟩
        intro e; simp [e] at ht
    | unlock =>
      have ht : t ∈ s.has := i8 t (by rw [hpc]; rfl)
      simp only [hpc] at h
      cases ho : s.obj with
      | none => exact absurd ho hob
      | some w =>
        cases w with
        | none => rw [i2, ho] at ht; cases ht
        | some u =>
          have hu : t = u := by rw [i2, ho] at ht; simpa using ht
          subst hu
          simp only [ho, if_true] at h
          cases h; have := hlast _ hr; cases this; rw [i2, ho]; simp

/-- C187: nobody waits for ever on a lock nobody has: a thread inside a call can take a step, unless another thread has the lock. -/
theorem C187_no_deadlock_partial (p : Port) (hp : inPlace p = true) (as : List Act) (s : St) (ha : ∀ a ∈ as, NoErr p a) (r : Run p St.init as s) (t : Nat) (hin : s.pc t ≠ .out)
    (hfree : ∀ u ∈ holders s.rets, u = t) : ∃ s', step p s false (.go t true) = some s' := by
  have hi := run_inv p hp as _ _ ha init_inv r
  have hh := has_run p as _ _ (by rfl) r
  rw [← hh] at hfree
  obtain ⟨i1, i2, i3, i4, i5, i6, i7, i8, i9⟩ := hi
  simp only [step, i1, Bool.false_eq_true, if_false, go]
  cases hpc : s.pc t with
  | out => exact absurd hpc hin
  | cas c => cases hw : s.word <;> simp
  | read c => simp
  | hal c => simp
  | pubOk c => simp
  | pubErr c => simp
  | spin c n => simp only []; split <;> (try split) <;> simp
  | go c =>
    cases c with
    | init => simp
    | lock =>
      have ht := i9 t (Or.inl (by rw [hpc]; rfl))
      cases ho : s.obj with
      | none => simp
      | some w =>
        cases w with
        | none => simp
        | some u => rw [i2, ho] at hfree ht; have := hfree u (by simp); subst this; simp at ht
    | trylock =>
      cases ho : s.obj with
      | none => simp
      | some w => cases w <;> simp
    | unlock =>
      cases ho : s.obj with
      | none => simp
      | some w =>
        cases w with
        | none => simp
        | some u => simp only []; split <;> simp

/-- C187 on the seven ports named here, with no assumption on the platform: the first lock call of the only thread there is gives it the lock, and never do two threads have it at once. -/
theorem C187_seven_ports_partial (p : Port) (hp : p ∈ [Port.linux, .darwin, .harmony, .esp32, .bk725x, .windows, .xr872]) :
    (∀ t, ∃ s, play p St.init [.call t .lock, .go t true, .go t true, .go t true, .go t true, .go t true] = some s ∧ s.ub = false ∧ s.rets = [⟨t, .lock, true⟩] ∧ holders s.rets = [t]) ∧
    (∀ as s, Run p St.init as s → s.ub = false ∧ (holders s.rets).length ≤ 1) := by
  have hin : inPlace p = true := by simp only [List.mem_cons, List.not_mem_nil, or_false] at hp; rcases hp with h | h | h | h | h | h | h <;> subst h <;> rfl
  have hcf : canFail p = false := by simp only [List.mem_cons, List.not_mem_nil, or_false] at hp; rcases hp with h | h | h | h | h | h | h <;> subst h <;> rfl
  constructor
  · intro t
    simp [play, step, St.init, may, upd, go, hin, St.ret, holders]
  · intro as s r
    have hi := run_inv p hin as _ _ (fun _ _ => Or.inl hcf) init_inv r
    refine ⟨hi.ub, ?_⟩
    rw [← has_run p as _ _ (by rfl) r, hi.has]
    split <;> simp

/-- C187: a lock that nobody uses can be ended at any time; then it is as new. -/
theorem C187_fini_partial (p : Port) (hp : inPlace p = true) (as : List Act) (s : St) (ha : ∀ a ∈ as, NoErr p a) (r : Run p St.init as s) (hout : ∀ t, s.pc t = .out) (hfree : holders s.rets = []) (t : Nat) :
    step p s true (.fini t) = some { s with word := St.init.word, obj := St.init.obj } := by
  have hi := run_inv p hp as _ _ ha init_inv r
  have hh : s.has = [] := by rw [has_run p as _ _ (by rfl) r]; exact hfree
  simp only [step, hi.ub, hh, Bool.false_eq_true, if_false, and_self, if_true, St.init]
  split
  · rfl
  · rename_i hw
    cases e : s.word with
    | initialized => exact absurd e hw
    | uninit => obtain ⟨h1, _⟩ := hi.un e; have hu := hi.ub; obtain ⟨a, b, c, d, f, g⟩ := s; simp only at e h1 hu hh; subst e h1 hu hh; rfl
    | initializing =>
      obtain ⟨u, _, h⟩ := hi.ing e
      rcases h with ⟨c, h, _⟩ | ⟨c, h, _⟩ <;> rw [hout u] at h <;> cases h

/-- C187: aosl_static_lock_init may be called at any time, by a thread that has the lock too. -/
theorem C187_init_any_time_partial (p : Port) (hp : inPlace p = true) (as : List Act) (s : St) (ha : ∀ a ∈ as, NoErr p a) (r : Run p St.init as s) (t : Nat) (hout : s.pc t = .out) :
    ∃ s', step p s false (.call t .init) = some s' ∧ s'.pc t ≠ .out ∧ holders s'.rets = holders s.rets := by
  have hi := run_inv p hp as _ _ ha init_inv r
  simp [step, hi.ub, hout, may, upd]

/-- C187 fails on asr1606, rtl8713, spreadtrum and ipro7: whatever is done, nobody is ever given a static lock… -/
theorem C187_false_bad_ports (p : Port) (hp : inPlace p = false) (as : List Act) (s : St) (r : Run p St.init as s) : holders s.rets = [] ∧ ∀ x ∈ s.rets, x.c = .lock ∨ x.c = .trylock → x.ok = false := by
  have key : ∀ (s : St) (as : List Act) (s' : St), Run p s as s' → (s.obj = none ∧ ∀ x ∈ s.rets, x.c = .lock ∨ x.c = .trylock → x.ok = false) →
      (s'.obj = none ∧ ∀ x ∈ s'.rets, x.c = .lock ∨ x.c = .trylock → x.ok = false) := by
    intro s as s' r
    induction r with
    | nil => exact id
    | @cons s s1 s2 a as idle hid h r ih =>
      intro ⟨h1, h2⟩
      apply ih
      cases a with
      | call t c =>
        simp only [step] at h
        split at h <;> try split at h
        all_goals first | (cases h; done) | (cases h; exact ⟨h1, h2⟩)
      | fini t =>
        simp only [step] at h
        split at h <;> try split at h
        all_goals first | (cases h; done) | (cases h; split <;> first | exact ⟨h1, h2⟩ | exact ⟨rfl, h2⟩)
      | go t ok =>
        simp only [step, go, hp, h1] at h
        repeat' split at h
        all_goals first
          | (cases h; done)
          | (cases h; exact ⟨h1, h2⟩)
          | (cases h; exact ⟨rfl, h2⟩)
          | (cases h; refine ⟨by first | exact h1 | rfl, ?_⟩; intro x hx; simp only [St.ret, List.mem_append, List.mem_singleton] at hx; rcases hx with hx | hx; (exact h2 x hx); (subst hx; simp))
          | (rename_i hff; simp at hff; done)
          | (simp_all; done)
  have hk := key _ _ _ r ⟨rfl, by simp [St.init]⟩
  refine ⟨?_, hk.2⟩
  have : ∀ (rs : List Ret), (∀ x ∈ rs, x.c = .lock ∨ x.c = .trylock → x.ok = false) → holders rs = [] := by
    intro rs
    simp only [holders]
    induction rs with
    | nil => intro _; rfl
    | cons x xs ih =>
      intro hx
      have h1 := hx x List.mem_cons_self
      have h2 := ih (fun y hy => hx y (List.mem_cons_of_mem _ hy))
      obtain ⟨t, c, ok⟩ := x
      cases c <;> cases ok <;> simp_all
  exact this _ hk.2

/-- …and the first lock, or trylock, of the only thread there is is undefined behaviour. -/
theorem C187_false_first_lock (p : Port) (hp : p ∈ [Port.asr1606, .rtl8713, .spreadtrum, .ipro7]) (t : Nat) (c : Call) (hc : c = .lock ∨ c = .trylock) :
    ∃ s, play p St.init [.call t c, .go t true, .go t true, .go t true, .go t true, .go t true] = some s ∧ s.ub = true := by
  simp only [List.mem_cons, List.not_mem_nil, or_false] at hp
  rcases hp with h | h | h | h <;> subst h <;> rcases hc with h | h <;> subst h <;> simp [play, step, St.init, may, upd, go, inPlace]

/-- C187 fails on tw82x: when making the mutex fails in one thread, a thread that was waiting for it goes on to a mutex that is not there. -/
theorem C187_false_tw82x : ∃ s, play .tw82x St.init
    [.call 1 .lock, .call 2 .lock, .go 1 true, .go 2 true, .go 1 true, .go 2 true, .go 1 false, .go 1 true, .go 2 true, .go 2 true] = some s ∧ s.ub = true ∧ s.rets = [⟨1, .lock, false⟩] := by
  simp [play, step, St.init, may, upd, go, canFail, St.ret]

/-- C187 fails everywhere: a lock call that meets the first use under way and looks 101 times before it is over comes back without the lock, although nobody has it. -/
theorem C187_false_gives_up (p : Port) : ∃ s, play p St.init ([.call 1 .lock, .call 2 .lock, .go 1 true, .go 2 true, .go 1 true, .go 2 true] ++ List.replicate 101 (.go 2 true)) = some s ∧
    s.rets = [⟨2, .lock, false⟩] ∧ s.has = [] := by
  cases p <;> simp [play, step, St.init, may, upd, go, canFail, St.ret, List.replicate]

/-- Two threads, first use at the same time; then one has the lock and the other's trylock fails, and the lock goes to the other. -/
example : ∃ s, play .linux St.init [.call 1 .lock, .call 2 .trylock, .go 1 true, .go 2 true, .go 1 true, .go 2 true, .go 1 true, .go 2 true, .go 1 true, .go 2 true, .go 1 true, .go 2 true,
      .call 2 .lock, .go 2 true, .call 1 .unlock, .go 1 true, .go 1 true, .go 2 true] = some s ∧
    s.rets = [⟨1, .lock, true⟩, ⟨2, .trylock, false⟩, ⟨1, .unlock, true⟩, ⟨2, .lock, true⟩] ∧ holders s.rets = [2] := by
  refine ⟨_, rfl, ?_⟩; decide +kernel

end Verif.StatLock
