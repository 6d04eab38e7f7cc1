import Verif.PortLock
/-!
C228: A lock that was created excludes, on every port, and nothing is left of it once it is destroyed.
-/
namespace Verif.PortLock

/-! ## The specification: what the threads can know from the results of their calls -/

/-- `have_`: there is a lock, going by what create returned; `inside`: the threads that have it, going by what lock, trylock and unlock returned. -/
structure Known where
  have_ : Bool
  inside : Nat → Bool

def Known.init : Known := ⟨false, fun _ => false⟩

def Known.after (k : Known) : Ev → Known
  | .created ok => ⟨ok, fun _ => false⟩
  | .locked t => { k with inside := fun u => u = t || k.inside u }
  | .tried t r => { k with inside := fun u => (u = t && r == 1) || k.inside u }
  | .unlocked t => { k with inside := fun u => u ≠ t && k.inside u }
  | .destroyed => ⟨false, fun _ => false⟩
  | .waits _ => k
  | .broke => k

/-- The calls the documentation allows: use it after it was made, take it only without having it, give back what you have, destroy it when nobody has it. -/
def Allowed (k : Known) : Call → Prop
  | .create _ => k.have_ = false
  | .lock t => k.have_ = true ∧ k.inside t = false
  | .trylock t => k.have_ = true ∧ k.inside t = false
  | .unlock t => k.have_ = true ∧ k.inside t = true
  | .destroy => k.have_ = true ∧ ∀ u, k.inside u = false

/-- Every call of the history is allowed by what was seen before it. -/
def Proper (mk : Luck → St → Out Bool) (p : Port) : St → Known → List Call → Prop
  | _, _, [] => True
  | s, k, c :: cs => Allowed k c ∧ Proper mk p (step mk p s c).2 (k.after (step mk p s c).1) cs

/-- Lock returns only with nobody inside and waits only for somebody inside; trylock says 1 with nobody inside and 0 with somebody inside; nothing breaks. -/
def Right (k : Known) : Ev → Prop
  | .locked _ => ∀ u, k.inside u = false
  | .waits _ => ∃ u, k.inside u = true
  | .tried _ r => (r = 1 ∧ ∀ u, k.inside u = false) ∨ (r = 0 ∧ ∃ u, k.inside u = true)
  | .broke => False
  | _ => True

def Good : Known → List Ev → Prop
  | _, [] => True
  | k, e :: es => Right k e ∧ Good (k.after e) es

/-- What is known after a history. -/
def Known.afterAll (k : Known) (es : List Ev) : Known := es.foldl Known.after k

/-- `Good` means exclusion: at most one thread is inside after every history that is good. -/
theorem C228_good_excludes (es : List Ev) (k : Known) (hk : ∀ t u, k.inside t = true → k.inside u = true → t = u) (h : Good k es) :
    ∀ t u, (k.afterAll es).inside t = true → (k.afterAll es).inside u = true → t = u := by
  induction es generalizing k with
  | nil => exact hk
  | cons e es ih =>
    refine ih (k.after e) ?_ h.2
    intro t u ht hu
    have hr := h.1
    cases e with
    | created _ => simp [Known.after] at ht
    | destroyed => simp [Known.after] at ht
    | waits _ => exact hk t u ht hu
    | broke => exact hk t u ht hu
    | locked v =>
      have hr' : ∀ u, k.inside u = false := hr
      simp [Known.after, hr'] at ht hu
      omega
    | unlocked v =>
      simp [Known.after] at ht hu
      exact hk t u ht.2 hu.2
    | tried v r =>
      rcases hr with ⟨rfl, hn⟩ | ⟨rfl, _⟩
      · simp [Known.after, hn] at ht hu
        omega
      · simp [Known.after] at ht hu
        exact hk t u ht hu

/-! ## The relation between what is known and what is -/

structure Rel (p : Port) (k : Known) (s : St) : Prop where
  no : k.have_ = false → s = ⟨none, 0, 0⟩ ∧ ∀ u, k.inside u = false
  yes : k.have_ = true → ∃ o, s = ⟨some (some o), 1 + heapBlocks p, 1⟩ ∧ ∀ u, k.inside u = true ↔ o = some u

/-- A creation that either gives a whole lock or none. -/
def Whole (mk : Luck → St → Out Bool) (p : Port) (l : Luck) : Prop :=
  mk l ⟨none, 0, 0⟩ = .ret true ⟨some (some none), 1 + heapBlocks p, 1⟩ ∨ mk l ⟨none, 0, 0⟩ = .ret false ⟨none, 0, 0⟩

theorem rel_step (mk : Luck → St → Out Bool) (p : Port) (k : Known) (s : St) (c : Call) (hw : ∀ l, c = .create l → Whole mk p l)
    (hr : Rel p k s) (ha : Allowed k c) : Right k (step mk p s c).1 ∧ Rel p (k.after (step mk p s c).1) (step mk p s c).2 := by
  cases c with
  | create l =>
    obtain ⟨rfl, hn⟩ := hr.no ha
    rcases hw l rfl with h | h
    · simp only [step, h]
      refine ⟨trivial, ⟨fun h' => by simp [Known.after] at h', fun _ => ⟨none, rfl, fun u => by simp [Known.after]⟩⟩⟩
    · simp only [step, h]
      exact ⟨trivial, ⟨fun _ => ⟨rfl, fun u => rfl⟩, fun h' => by simp [Known.after] at h'⟩⟩
  | lock t =>
    obtain ⟨o, rfl, ho⟩ := hr.yes ha.1
    cases o with
    | none =>
      have hn : ∀ u, k.inside u = false := fun u => by have := ho u; simpa using this
      simp only [step, lock]
      refine ⟨hn, ⟨fun h' => by simp [Known.after, ha.1] at h', fun _ => ⟨some t, rfl, fun u => ?_⟩⟩⟩
      simp [Known.after, hn, eq_comm]
    | some v =>
      simp only [step, lock]
      exact ⟨⟨v, (ho v).2 rfl⟩, hr⟩
  | trylock t =>
    obtain ⟨o, rfl, ho⟩ := hr.yes ha.1
    cases o with
    | none =>
      have hn : ∀ u, k.inside u = false := fun u => by have := ho u; simpa using this
      simp only [step, trylock]
      refine ⟨.inl ⟨rfl, hn⟩, ⟨fun h' => by simp [Known.after, ha.1] at h', fun _ => ⟨some t, rfl, fun u => ?_⟩⟩⟩
      simp [Known.after, hn, eq_comm]
    | some v =>
      simp only [step, trylock]
      refine ⟨.inr ⟨rfl, v, (ho v).2 rfl⟩, ⟨fun h' => by simp [Known.after, ha.1] at h', fun _ => ⟨some v, rfl, fun u => ?_⟩⟩⟩
      simpa [Known.after] using ho u
  | unlock t =>
    obtain ⟨o, rfl, ho⟩ := hr.yes ha.1
    have hot := (ho t).1 ha.2
    subst hot
    simp only [step, unlock]
    refine ⟨trivial, ⟨fun h' => by simp [Known.after, ha.1] at h', fun _ => ⟨none, rfl, fun u => ?_⟩⟩⟩
    have := ho u
    simp [Known.after]
    intro hne
    cases hu : k.inside u with
    | false => rfl
    | true => exact absurd (Option.some.inj (this.1 hu)).symm hne
  | destroy =>
    obtain ⟨o, rfl, ho⟩ := hr.yes ha.1
    simp only [step, destroy]
    refine ⟨trivial, ⟨fun _ => ⟨?_, fun u => rfl⟩, fun h' => by simp [Known.after] at h'⟩⟩
    simp

theorem rel_run (mk : Luck → St → Out Bool) (p : Port) (cs : List Call) (k : Known) (s : St) (hw : ∀ l, .create l ∈ cs → Whole mk p l)
    (hr : Rel p k s) (hp : Proper mk p s k cs) :
    Good k (run mk p s cs).1 ∧ Rel p (k.afterAll (run mk p s cs).1) (run mk p s cs).2 := by
  induction cs generalizing k s with
  | nil => exact ⟨trivial, hr⟩
  | cons c cs ih =>
    have h1 := rel_step mk p k s c (fun l hl => hw l (by simp [hl])) hr hp.1
    have h2 := ih _ _ (fun l hl => hw l (by simp [hl])) h1.2 hp.2
    exact ⟨⟨h1.1, h2.1⟩, h2.2⟩

theorem rel_init (p : Port) : Rel p Known.init St.init :=
  ⟨fun _ => ⟨rfl, fun _ => rfl⟩, fun h => by simp [Known.init] at h⟩

/-- C228, the part that holds: on every port, for every proper history of any number of threads, as long as the mutex could be made whenever
    the memory of the lock could be had: the results are right, so at most one thread is inside, and nobody waits without reason. -/
theorem C228_excludes_partial (p : Port) (cs : List Call) (hl : ∀ l, .create l ∈ cs → l.obj = true → halCreate p l = true)
    (hp : Proper (create p) p St.init Known.init cs) : Good Known.init (run (create p) p St.init cs).1 := by
  refine (rel_run (create p) p cs Known.init St.init ?_ (rel_init p) hp).1
  intro l hm
  cases ho : l.obj with
  | false => exact .inr (by simp [create, ho])
  | true => exact .inl (by simp [create, ho, hl l hm ho])

/-- With the check that is missing in aosl_lock_create, C228 holds however the allocations and creations go. -/
theorem C228_checked (p : Port) (cs : List Call) (hp : Proper (createChecked p) p St.init Known.init cs) :
    Good Known.init (run (createChecked p) p St.init cs).1 := by
  refine (rel_run (createChecked p) p cs Known.init St.init ?_ (rel_init p) hp).1
  intro l _
  cases ho : l.obj with
  | false => exact .inr (by simp [createChecked, ho])
  | true =>
    cases hh : halCreate p l with
    | true => exact .inl (by simp [createChecked, ho, hh])
    | false => exact .inr (by simp [createChecked, ho, hh])

example : Proper (create .linux) .linux St.init Known.init
    [.create ⟨true, true, true⟩, .lock 0, .trylock 1, .lock 2, .unlock 0, .lock 2, .unlock 2, .destroy, .create ⟨false, true, true⟩] := by
  simp [Proper, Allowed, step, create, halCreate, heapBlocks, lock, trylock, unlock, destroy, St.init, Known.init, Known.after]

example : (run (create .linux) .linux St.init [.create ⟨true, true, true⟩, .lock 0, .trylock 1, .lock 2, .unlock 0, .lock 2]).1 =
    [.created true, .locked 0, .tried 1 0, .waits 2, .unlocked 0, .locked 2] := by decide

/-! ## What goes wrong without a mutex -/

/-- A lock that could have no mutex: the memory of the lock was there, that of the mutex was not and the system made none. -/
def bad : Luck := ⟨true, false, false⟩

/-- C228 is false on the ports that check for a missing mutex: create gives a lock, and it lets two threads in. -/
theorem C228_two_inside (p : Port) (h : onNull p = .refuse) :
    Proper (create p) p St.init Known.init [.create bad, .lock 0, .lock 1] ∧
    (run (create p) p St.init [.create bad, .lock 0, .lock 1]).1 = [.created true, .locked 0, .locked 1] := by
  cases p <;> simp [onNull] at h <;>
    simp [Proper, Allowed, run, step, create, halCreate, heapBlocks, lock, onNull, bad, St.init, Known.init, Known.after]

/-- C228 is false on the other ports: create gives a lock, and the first lock call hands a null pointer to the operating system. -/
theorem C228_breaks (p : Port) (h : onNull p = .pass) :
    Proper (create p) p St.init Known.init [.create bad, .lock 0] ∧
    (run (create p) p St.init [.create bad, .lock 0]).1 = [.created true, .broke] := by
  cases p <;> simp [onNull] at h <;>
    simp [Proper, Allowed, run, step, create, halCreate, heapBlocks, lock, onNull, bad, St.init, Known.init, Known.after]

/-- On every port a thread that only tries never gets such a lock, however often it tries, although nobody has it. -/
theorem C228_never_got (p : Port) (t n : Nat) :
    Proper (create p) p St.init Known.init (.create bad :: List.replicate n (.trylock t)) ∧
    (run (create p) p St.init (.create bad :: List.replicate n (.trylock t))).1 = .created true :: List.replicate n (.tried t 0) := by
  have hc : step (create p) p St.init (.create bad) = (.created true, ⟨some none, 1, 0⟩) := by
    cases p <;> simp [step, create, halCreate, heapBlocks, bad, St.init]
  have ht : step (create p) p ⟨some none, 1, 0⟩ (.trylock t) = (.tried t 0, ⟨some none, 1, 0⟩) := by simp [step, trylock]
  constructor
  · refine ⟨rfl, ?_⟩
    rw [hc]
    have : ∀ k : Known, k.have_ = true → (∀ u, k.inside u = false) → Proper (create p) p ⟨some none, 1, 0⟩ k (List.replicate n (.trylock t)) := by
      induction n with
      | zero => intros; trivial
      | succ n ih =>
        intro k h1 h2
        refine ⟨⟨h1, h2 t⟩, ?_⟩
        rw [ht]
        exact ih _ h1 (fun u => by simp [Known.after, h2])
    exact this _ rfl (fun _ => rfl)
  · have hr : (run (create p) p ⟨some none, 1, 0⟩ (List.replicate n (.trylock t))).1 = List.replicate n (.tried t 0) := by
      induction n with
      | zero => rfl
      | succ n ih => simp only [List.replicate_succ, run, ht, ih]
    simp only [run, hc, hr]

/-- So C228 is false on every port. -/
theorem C228_violated (p : Port) : ∃ cs, Proper (create p) p St.init Known.init cs ∧ ¬ Good Known.init (run (create p) p St.init cs).1 := by
  refine ⟨_, (C228_never_got p 0 1).1, ?_⟩
  rw [(C228_never_got p 0 1).2]
  intro h
  have h2 : Right (Known.init.after (.created true)) (.tried 0 0) := h.2.1
  rcases h2 with ⟨h, _⟩ | ⟨_, u, hu⟩
  · exact absurd h (by decide)
  · simp [Known.after] at hu

/-! ## Nothing is left -/

structure Left (p : Port) (b m : Nat) (k : Known) (s : St) : Prop where
  no : k.have_ = false → s = ⟨none, b, m⟩
  yes : k.have_ = true → s = ⟨some none, b + 1, m⟩ ∨ ∃ o, s = ⟨some (some o), b + 1 + heapBlocks p, m + 1⟩

theorem left_step (p : Port) (b m : Nat) (k : Known) (s : St) (c : Call) (hr : Left p b m k s) (ha : Allowed k c) :
    Left p b m (k.after (step (create p) p s c).1) (step (create p) p s c).2 := by
  cases c with
  | create l =>
    have hs := hr.no ha
    subst hs
    simp only [step, create]
    cases ho : l.obj with
    | false => exact ⟨fun _ => rfl, fun h => by simp [Known.after] at h⟩
    | true =>
      cases hh : halCreate p l with
      | true => exact ⟨fun h => by simp [Known.after] at h, fun _ => .inr ⟨none, by simp⟩⟩
      | false => exact ⟨fun h => by simp [Known.after] at h, fun _ => .inl (by simp)⟩
  | lock t =>
    rcases hr.yes ha.1 with rfl | ⟨o, rfl⟩
    · cases hn : onNull p <;> simp only [step, lock, hn] <;>
        exact ⟨fun h => by simp [Known.after, ha.1] at h, fun _ => .inl rfl⟩
    · cases o <;> simp only [step, lock] <;>
        exact ⟨fun h => by simp [Known.after, ha.1] at h, fun _ => .inr ⟨_, rfl⟩⟩
  | trylock t =>
    rcases hr.yes ha.1 with rfl | ⟨o, rfl⟩
    · exact ⟨fun h => by simp [step, trylock, Known.after, ha.1] at h, fun _ => .inl rfl⟩
    · cases o <;> simp only [step, trylock] <;>
        exact ⟨fun h => by simp [Known.after, ha.1] at h, fun _ => .inr ⟨_, rfl⟩⟩
  | unlock t =>
    rcases hr.yes ha.1 with rfl | ⟨o, rfl⟩
    · cases hn : onNull p <;> simp only [step, unlock, hn] <;>
        exact ⟨fun h => by simp [Known.after, ha.1] at h, fun _ => .inl rfl⟩
    · exact ⟨fun h => by simp [step, unlock, Known.after, ha.1] at h, fun _ => .inr ⟨_, rfl⟩⟩
  | destroy =>
    rcases hr.yes ha.1 with rfl | ⟨o, rfl⟩
    · exact ⟨fun _ => rfl, fun h => by simp [step, destroy, Known.after] at h⟩
    · refine ⟨fun _ => by simp [step, destroy], fun h => by simp [step, destroy, Known.after] at h⟩

/-- C228, the rest: on every port and however the creations go, and whatever else is in use, once there is no lock, exactly the blocks of
memory and the mutexes are in use that were before. -/
theorem C228_nothing_left (p : Port) (b m : Nat) (cs : List Call) (hp : Proper (create p) p ⟨none, b, m⟩ Known.init cs)
    (hn : (Known.init.afterAll (run (create p) p ⟨none, b, m⟩ cs).1).have_ = false) :
    (run (create p) p ⟨none, b, m⟩ cs).2.blocks = b ∧ (run (create p) p ⟨none, b, m⟩ cs).2.mutexes = m := by
  have key : ∀ (cs : List Call) (k : Known) (s : St), Left p b m k s → Proper (create p) p s k cs →
      Left p b m (k.afterAll (run (create p) p s cs).1) (run (create p) p s cs).2 := by
    intro cs
    induction cs with
    | nil => intro k s h _; exact h
    | cons c cs ih => intro k s h hp; exact ih _ _ (left_step p b m k s c h hp.1) hp.2
  have := (key cs Known.init ⟨none, b, m⟩ ⟨fun _ => rfl, fun h => by simp [Known.init] at h⟩ hp).no hn
  rw [this]
  exact ⟨rfl, rfl⟩

/-- How many blocks of memory a lock with a mutex takes and gives back. -/
example : (run (create .linux) .linux ⟨none, 5, 3⟩ [.create ⟨true, true, true⟩]).2 = ⟨some (some none), 7, 4⟩ ∧
    (run (create .xr872) .xr872 ⟨none, 5, 3⟩ [.create ⟨true, true, true⟩]).2 = ⟨some (some none), 6, 4⟩ ∧
    (run (create .linux) .linux ⟨none, 5, 3⟩ [.create ⟨true, true, true⟩, .destroy]).2 = ⟨none, 5, 3⟩ ∧
    (run (create .sprdT117) .sprdT117 ⟨none, 5, 3⟩ [.create ⟨true, true, false⟩]).2 = ⟨some none, 6, 3⟩ := by decide

example : Proper (create .windows) .windows St.init Known.init [.create bad, .lock 0, .unlock 0, .destroy] ∧
    (Known.init.afterAll (run (create .windows) .windows St.init [.create bad, .lock 0, .unlock 0, .destroy]).1).have_ = false := by
  simp [Proper, Allowed, run, step, create, halCreate, heapBlocks, lock, unlock, destroy, onNull, bad, St.init, Known.init, Known.after, Known.afterAll]

end Verif.PortLock
