import Verif.CloseApi

/-! # C234: what aosl_close and aosl_mpq_del_fd answer is true -/

namespace Verif.CloseApi

/-- The platform's number is closed and no longer registered. -/
def Gone (s : St) (fd : Nat) : Prop := s.opened fd = false ∧ s.tab fd = none

/-- The table and the objects agree about the number of the object that `fd` finds. -/
def Agrees (s : St) (fd : Nat) : Prop := ∀ id, s.tab fd = some id → (s.obj id).fd = some fd

/-- The others leave the owner of the object as it is, and its number as it is or cleared (that is what another close does). -/
def Others (s : St) (e : Env) (fd : Nat) : Prop :=
  ∀ id, s.tab fd = some id →
    ((e.between s).obj id).q = (s.obj id).q ∧ (((e.between s).obj id).fd = some fd ∨ ((e.between s).obj id).fd = none)

/-- The call is made on the owner's thread. -/
def OnOwner (s : St) (e : Env) (fd : Nat) : Prop := ∃ id, s.tab fd = some id ∧ e.me = some (s.obj id).q

/-- The state in which the work is done: the caller's if there is nothing to hand over, otherwise the one the others leave. -/
def Met (s : St) (e : Env) (fd : Nat) (m : St) : Prop :=
  ((s.tab fd = none ∨ OnOwner s e fd) ∧ m = s) ∨ (s.tab fd ≠ none ∧ ¬ OnOwner s e fd ∧ (m = e.between s ∨ m = s))

/-- The platform never answers below the numbers that are errors (the answer is an `int` of the platform layer; err.h:25). -/
def closeTruthful : Prop :=
  ∀ (s : St) (e : Env) (fd : Nat), Agrees s fd → Others s e fd → 0 ≤ (aoslClose s e fd).1 → Gone (aoslClose s e fd).2 fd

/-- The same for aosl_mpq_del_fd: an answer that is not negative means that the fd is not registered. -/
def delTruthful : Prop :=
  ∀ (s : St) (e : Env) (fd : Nat), Agrees s fd → Others s e fd → 0 ≤ (aoslDel s e fd).1 → (aoslDel s e fd).2.tab fd = none

theorem halErr_range (e : Int) : -4095 ≤ halErr e ∧ halErr e < 0 := by
  unfold halErr; repeat' split
  all_goals omega

theorem returnErr_snd (r : Int × St) : (returnErr r).2.tab = r.2.tab ∧ (returnErr r).2.opened = r.2.opened ∧ (returnErr r).2.obj = r.2.obj := by
  unfold returnErr; split <;> simp

theorem returnErr_cases (r : Int × St) (hr : -4095 ≤ r.1) :
    (0 ≤ r.1 ∧ returnErr r = r) ∨ (r.1 < 0 ∧ (returnErr r).1 = -1 ∧ (returnErr r).2.errno = -r.1) := by
  unfold returnErr
  split
  · rename_i h; exact .inr ⟨h.2, rfl, rfl⟩
  · rename_i h; exact .inl ⟨by omega, rfl⟩

theorem qDel_cases (m : St) (q id : Nat) :
    (-4095 ≤ (qDel m q id).1 ∧ (qDel m q id).1 < 0 ∧ (qDel m q id).2.opened = m.opened ∧
      ∀ x, (m.obj id).fd ≠ some x → (qDel m q id).2.tab x = m.tab x) ∨
    ((qDel m q id).1 = 0 ∧ (qDel m q id).2.opened = m.opened ∧ (m.obj id).q = q ∧ ((qDel m q id).2.obj id).timer = false ∧
      ((qDel m q id).2.obj id).linked = false ∧
      ∃ fd, (m.obj id).fd = some fd ∧ m.tab fd = some id ∧ (qDel m q id).2.tab = fun x => if x = fd then none else m.tab x) := by
  unfold qDel
  by_cases hq : (m.obj id).q = q
  · cases hf : (m.obj id).fd with
    | none => simp [hq, hf, ENONET, setObj]
    | some fd =>
      by_cases ht : m.tab fd = some id
      · right; simp [hq, hf, ht, setObj]
      · left
        simp only [hq, hf, ne_eq, not_true_eq_false, if_false, ht, ENONET, setObj]
        refine ⟨by omega, by omega, trivial, fun x hx => ?_⟩
        have : x ≠ fd := fun e => hx (by rw [e])
        simp [this]
  · simp [hq, EPERM]

theorem osClose_cases (s : St) (e : Env) (fd : Nat) :
    (e.hal < 0 ∧ -4095 ≤ (osClose s e fd).1 ∧ (osClose s e fd).1 < 0 ∧ (osClose s e fd).2 = s) ∨
    (0 ≤ e.hal ∧ (osClose s e fd).1 = e.hal ∧ (osClose s e fd).2 = { s with opened := fun x => if x = fd then false else s.opened x }) := by
  unfold osClose
  have := halErr_range e.hal
  by_cases h : e.hal < 0
  · left; simpa [h] using this
  · simp [h]; omega

/-- What `__this_q_close_f` does to an object that has the number `fd`, or has lost it. -/
theorem thisQClose_cases (m : St) (e : Env) (q id fd : Nat) (hf : (m.obj id).fd = some fd ∨ (m.obj id).fd = none) :
    -4095 ≤ (thisQClose m e q id).1 ∧ (∀ x, x ≠ fd → (thisQClose m e q id).2.tab x = m.tab x ∧ (thisQClose m e q id).2.opened x = m.opened x) ∧
    ((0 ≤ (thisQClose m e q id).1 ∧ Gone (thisQClose m e q id).2 fd) ∨
     ((thisQClose m e q id).1 < 0 ∧ (thisQClose m e q id).2.opened fd = m.opened fd)) := by
  unfold thisQClose
  rcases qDel_cases m q id with ⟨h1, h2, h3, h4⟩ | ⟨h1, h2, hq, -, -, fd', h3, h4, h5⟩
  · simp only [h2, if_true]
    refine ⟨h1, fun x hx => ⟨h4 x ?_, by rw [h3]⟩, .inr ⟨trivial, by rw [h3]⟩⟩
    rcases hf with hf | hf <;> simp [hf]; exact fun e => hx e.symm
  · have hfd : fd' = fd := by rcases hf with hf | hf <;> simp_all
    subst hfd
    simp only [h1, h3, Int.lt_irrefl, if_false]
    rcases osClose_cases (qDel m q id).2 e fd' with ⟨g1, g2, g3, g4⟩ | ⟨g1, g2, g3⟩
    · refine ⟨g2, fun x hx => ?_, .inr ⟨g3, ?_⟩⟩
      · simp [g4, setObj, h2, h5, hx]
      · simp [g4, setObj, h2]
    · refine ⟨by omega, fun x hx => ?_, .inl ⟨by omega, ?_⟩⟩
      · simp [g3, setObj, h2, h5, hx]
      · simp [Gone, g3, setObj, h5]

/-- The same for `__q_del_f`. -/
theorem qDel_shape (m : St) (q id fd : Nat) (hf : (m.obj id).fd = some fd ∨ (m.obj id).fd = none) :
    -4095 ≤ (qDel m q id).1 ∧ (∀ x, x ≠ fd → (qDel m q id).2.tab x = m.tab x) ∧ (qDel m q id).2.opened = m.opened ∧
    (((qDel m q id).1 = 0 ∧ (qDel m q id).2.tab fd = none) ∨ (qDel m q id).1 < 0) := by
  rcases qDel_cases m q id with ⟨h1, h2, h3, h4⟩ | ⟨h1, h2, hq, -, -, fd', h3, h4, h5⟩
  · refine ⟨h1, fun x hx => h4 x ?_, h3, .inr h2⟩
    rcases hf with hf | hf <;> simp [hf]; exact fun e => hx e.symm
  · have hfd : fd' = fd := by rcases hf with hf | hf <;> simp_all
    subst hfd
    exact ⟨by omega, fun x hx => by simp [h5, hx], h2, .inl ⟨h1, by simp [h5]⟩⟩

/-- The ways of a call. -/
theorem via_cases (s : St) (e : Env) (fd id : Nat) (work : St → Nat → Int × St) (hid : s.tab fd = some id) (ha : Agrees s fd) (ho : Others s e fd) :
    (viaQueue s e id work = (-EINVAL, s) ∧ ¬ OnOwner s e fd) ∨
    (viaQueue s e id work = ((e.callErr : Int), s) ∧ e.callErr ≠ 0 ∧ e.found = true ∧ ¬ OnOwner s e fd) ∨
    (∃ m, Met s e fd m ∧ ((m.obj id).fd = some fd ∨ (m.obj id).fd = none) ∧ viaQueue s e id work = work m (s.obj id).q) := by
  have hon : OnOwner s e fd ↔ e.me = some (s.obj id).q :=
    ⟨fun ⟨i, hi, h⟩ => by rw [hid] at hi; cases hi; exact h, fun h => ⟨id, hid, h⟩⟩
  unfold viaQueue
  by_cases h1 : e.me = some (s.obj id).q
  · right; right
    exact ⟨s, .inl ⟨.inr (hon.2 h1), rfl⟩, .inl (ha id hid), by simp [h1]⟩
  · have hn : ¬ OnOwner s e fd := fun h => h1 (hon.1 h)
    by_cases h2 : e.found = true
    · by_cases h3 : e.callErr = 0
      · right; right
        exact ⟨e.between s, .inr ⟨by rw [hid]; simp, hn, .inl rfl⟩, (ho id hid).2, by simp [h1, h2, h3]⟩
      · right; left; exact ⟨by simp [h1, h2, h3], h3, h2, hn⟩
    · left; exact ⟨by simp [h1, h2], hn⟩

/-- **C234.** aosl_close says what it did: if the fd was not registered, or the call is made on the owner's thread, or it gets through to that thread, an answer that is
not negative means the fd is closed and no longer registered. Missing: a call that does not get through, which answers a positive number (`C234_close_false`). -/
theorem C234_close_true_partial (s : St) (e : Env) (fd : Nat) (ha : Agrees s fd) (ho : Others s e fd)
    (hc : s.tab fd = none ∨ OnOwner s e fd ∨ e.callErr = 0) (h : 0 ≤ (aoslClose s e fd).1) : Gone (aoslClose s e fd).2 fd := by
  have key : ∀ r : Int × St, -4095 ≤ r.1 → (0 ≤ r.1 → Gone r.2 fd) → 0 ≤ (returnErr r).1 → Gone (returnErr r).2 fd := by
    intro r hr hg hp
    rcases returnErr_cases r hr with ⟨h1, h2⟩ | ⟨_, h2, _⟩
    · rw [h2]; exact hg h1
    · omega
  unfold aoslClose at h ⊢
  cases hid : s.tab fd with
  | none =>
    rw [hid] at h
    refine key _ ?_ ?_ h <;> rcases osClose_cases s e fd with ⟨g1, g2, g3, g4⟩ | ⟨g1, g2, g3⟩
    · exact g2
    · simp only [g2]; omega
    · intro hp; have : 0 ≤ (osClose s e fd).1 := hp; omega
    · intro; simp [Gone, g3, hid]
  | some id =>
    rw [hid] at h
    simp only at h ⊢
    rcases via_cases s e fd id (fun s q => thisQClose s e q id) hid ha ho with ⟨hv, _⟩ | ⟨hv, hz, _, hn⟩ | ⟨m, _, hf, hv⟩
    · rw [hv] at h ⊢; simp [returnErr, EINVAL] at h
    · rcases hc with hc | hc | hc
      · simp [hid] at hc
      · exact absurd hc hn
      · exact absurd hc hz
    · rw [hv] at h ⊢
      have hs := thisQClose_cases m e (s.obj id).q id fd hf
      refine key _ hs.1 (fun hp => ?_) h
      rcases hs.2.2 with ⟨_, g⟩ | ⟨g, _⟩
      · exact g
      · omega

/-- **C234.** An answer of aosl_close that is negative is -1 with an error number, and then the fd is as open as it was when the work was done. -/
theorem C234_close_refused (s : St) (e : Env) (fd : Nat) (ha : Agrees s fd) (ho : Others s e fd) (h : (aoslClose s e fd).1 < 0) :
    (aoslClose s e fd).1 = -1 ∧ 0 < (aoslClose s e fd).2.errno ∧ ∃ m, Met s e fd m ∧ (aoslClose s e fd).2.opened fd = m.opened fd := by
  have key : ∀ r : Int × St, -4095 ≤ r.1 → (r.1 < 0 → ∃ m, Met s e fd m ∧ r.2.opened fd = m.opened fd) → (returnErr r).1 < 0 →
      (returnErr r).1 = -1 ∧ 0 < (returnErr r).2.errno ∧ ∃ m, Met s e fd m ∧ (returnErr r).2.opened fd = m.opened fd := by
    intro r hr hg hp
    rcases returnErr_cases r hr with ⟨h1, h2⟩ | ⟨h1, h2, h3⟩
    · rw [h2] at hp; omega
    · obtain ⟨m, hm, ho'⟩ := hg h1
      exact ⟨h2, by omega, m, hm, by rw [(returnErr_snd r).2.1]; exact ho'⟩
  unfold aoslClose at h ⊢
  cases hid : s.tab fd with
  | none =>
    rw [hid] at h
    refine key _ ?_ ?_ h <;> rcases osClose_cases s e fd with ⟨g1, g2, g3, g4⟩ | ⟨g1, g2, g3⟩
    · exact g2
    · simp only [g2]; omega
    · intro; exact ⟨s, .inl ⟨.inl hid, rfl⟩, by rw [g4]⟩
    · intro hp; simp only [g2] at hp; omega
  | some id =>
    rw [hid] at h
    simp only at h ⊢
    rcases via_cases s e fd id (fun s q => thisQClose s e q id) hid ha ho with ⟨hv, hn⟩ | ⟨hv, hz, _, hn⟩ | ⟨m, hm, hf, hv⟩ <;> rw [hv] at h ⊢
    · exact key _ (by simp [EINVAL]) (fun _ => ⟨s, .inr ⟨by simp [hid], hn, .inr rfl⟩, rfl⟩) h
    · have : ¬ ((e.callErr : Int) < 0) := by omega
      simp [returnErr, this] at h
    · have hs := thisQClose_cases m e (s.obj id).q id fd hf
      refine key _ hs.1 (fun hp => ⟨m, hm, ?_⟩) h
      rcases hs.2.2 with ⟨g, _⟩ | ⟨_, g⟩
      · omega
      · exact g

/-- **C234.** No other number is closed or unregistered by aosl_close. -/
theorem C234_close_others (s : St) (e : Env) (fd : Nat) (ha : Agrees s fd) (ho : Others s e fd) :
    ∃ m, Met s e fd m ∧ ∀ x, x ≠ fd → (aoslClose s e fd).2.tab x = m.tab x ∧ (aoslClose s e fd).2.opened x = m.opened x := by
  unfold aoslClose
  simp only [(returnErr_snd _).1, (returnErr_snd _).2.1]
  cases hid : s.tab fd with
  | none =>
    refine ⟨s, .inl ⟨.inl hid, rfl⟩, fun x hx => ?_⟩
    rcases osClose_cases s e fd with ⟨_, _, _, g4⟩ | ⟨_, _, g3⟩
    · simp [g4]
    · simp [g3, hx]
  | some id =>
    simp only
    rcases via_cases s e fd id (fun s q => thisQClose s e q id) hid ha ho with ⟨hv, hn⟩ | ⟨hv, hz, _, hn⟩ | ⟨m, hm, hf, hv⟩ <;> rw [hv]
    · exact ⟨s, .inr ⟨by simp [hid], hn, .inr rfl⟩, fun x _ => ⟨rfl, rfl⟩⟩
    · exact ⟨s, .inr ⟨by simp [hid], hn, .inr rfl⟩, fun x _ => ⟨rfl, rfl⟩⟩
    · exact ⟨m, hm, (thisQClose_cases m e (s.obj id).q id fd hf).2.1⟩

/-- **C234.** On the owner's thread, and for an fd that is not registered, the answer is the platform's; registered it is not any more in any case. -/
theorem C234_close_exact (s : St) (e : Env) (fd : Nat) (ha : Agrees s fd) (hc : s.tab fd = none ∨ OnOwner s e fd) :
    (aoslClose s e fd).1 = (if e.hal < 0 then -1 else e.hal) ∧ (aoslClose s e fd).2.tab fd = none ∧
    (aoslClose s e fd).2.opened fd = (decide (e.hal < 0) && s.opened fd) ∧ (e.hal < 0 → (aoslClose s e fd).2.errno = -halErr e.hal) := by
  have hr := halErr_range e.hal
  rcases hc with hid | ⟨id, hid, hme⟩
  · simp only [aoslClose, hid, osClose, returnErr]
    by_cases h : e.hal < 0
    · simp [h, hr, hid]
    · simp [h, hid]
  · have hf := ha id hid
    simp only [aoslClose, hid, viaQueue, hme, if_true, thisQClose, qDel, hf, setObj, ne_eq, not_true_eq_false, if_false, Int.lt_irrefl, osClose, returnErr]
    by_cases h : e.hal < 0
    · simp [h, hr]
    · simp [h]

/-- **C234.** The error numbers: the platform's errors as `AOSL_EINTR`, `AOSL_EAGAIN`, `AOSL_EINPROGRESS` and otherwise `AOSL_EHAL`; `AOSL_EINVAL` if the
owner's queue has gone, for both calls; `AOSL_EPERM` if the fd is another queue's by the time the owner's thread gets to it. -/
theorem C234_errors (s : St) (e : Env) (fd : Nat) :
    ((s.tab fd = none ∨ OnOwner s e fd) → Agrees s fd →
      (e.hal = -2002 → (aoslClose s e fd).2.errno = 1004) ∧ (e.hal = -2001 → (aoslClose s e fd).2.errno = 1011) ∧
      (e.hal = -2003 → (aoslClose s e fd).2.errno = 1115) ∧
      (e.hal < 0 → e.hal ≠ -2002 → e.hal ≠ -2001 → e.hal ≠ -2003 → (aoslClose s e fd).2.errno = 2000)) ∧
    (∀ id, s.tab fd = some id → e.me ≠ some (s.obj id).q → e.found = false →
      (aoslClose s e fd).1 = -1 ∧ (aoslClose s e fd).2.errno = 1022 ∧ (aoslDel s e fd).1 = -1 ∧ (aoslDel s e fd).2.errno = 1022 ∧
      (aoslClose s e fd).2.tab = s.tab ∧ (aoslClose s e fd).2.opened = s.opened ∧ (aoslDel s e fd).2.tab = s.tab) ∧
    (∀ id, s.tab fd = some id → e.me ≠ some (s.obj id).q → e.found = true → e.callErr = 0 → ((e.between s).obj id).q ≠ (s.obj id).q →
      (aoslClose s e fd).1 = -1 ∧ (aoslClose s e fd).2.errno = 1001 ∧ (aoslDel s e fd).1 = -1 ∧ (aoslDel s e fd).2.errno = 1001) := by
  refine ⟨fun hc ha => ?_, fun id hid hm hf => ?_, fun id hid hm hf hc hq => ?_⟩
  · have h := (C234_close_exact s e fd ha hc).2.2.2
    refine ⟨fun hh => ?_, fun hh => ?_, fun hh => ?_, fun hh h1 h2 h3 => ?_⟩
    · rw [h (by omega), hh]; rfl
    · rw [h (by omega), hh]; rfl
    · rw [h (by omega), hh]; rfl
    · rw [h hh]; simp [halErr, h1, h2, h3]
  · simp [aoslClose, aoslDel, hid, viaQueue, hm, hf, returnErr, EINVAL]
  · simp [aoslClose, aoslDel, hid, viaQueue, hm, hf, hc, thisQClose, qDel, hq, returnErr, EPERM]

/-- **C234.** A close that gets through to the owner's thread while nobody else touches the fd answers what the platform answers, too. -/
theorem C234_close_through (s : St) (e : Env) (fd id : Nat) (ha : Agrees s fd) (hid : s.tab fd = some id) (hf : e.found = true) (hc : e.callErr = 0)
    (hb : e.between s = s) (hh : 0 ≤ e.hal) : (aoslClose s e fd).1 = e.hal ∧ Gone (aoslClose s e fd).2 fd := by
  have h0 := ha id hid
  have hw : viaQueue s e id (fun s q => thisQClose s e q id) = thisQClose s e (s.obj id).q id := by
    unfold viaQueue; by_cases h1 : e.me = some (s.obj id).q <;> simp [h1, hf, hc, hb]
  have h1 : ¬ e.hal < 0 := by omega
  simp only [aoslClose, hid, hw]
  simp [thisQClose, qDel, h0, hid, setObj, osClose, returnErr, Gone, h1]

/-- **C234.** Where the code is wrong: a call that does not get through to the owner's thread is answered with a positive number, although nothing was done. -/
theorem C234_close_false (s : St) (e : Env) (fd id : Nat) (hid : s.tab fd = some id) (hm : e.me ≠ some (s.obj id).q) (hf : e.found = true)
    (hc : e.callErr ≠ 0) : aoslClose s e fd = ((e.callErr : Int), s) ∧ aoslDel s e fd = ((e.callErr : Int), s) := by
  have : ¬ ((e.callErr : Int) < 0) := by omega
  simp [aoslClose, aoslDel, hid, viaQueue, hm, hf, hc, returnErr, this]

/-- A registered and open fd 7 of queue 1. -/
def sDemo : St := ⟨fun x => if x = 7 then some 0 else none, fun _ => ⟨some 7, 1, true, true⟩, fun x => x = 7 || x = 8, 0⟩

/-- A call from another thread that does not get in (1105: `AOSL_ENOBUFS`, say). -/
def eLost : Env := ⟨none, true, 1105, id, 0⟩

theorem demo_agrees (e : Env) (he : e.between = id) : Agrees sDemo 7 ∧ Others sDemo e 7 := by
  constructor
  · intro id h; simp [sDemo]
  · intro id h; simp [sDemo, he]

/-- **C234.** So the claim as such is false of the code, for both calls. -/
theorem C234_not_truthful : ¬ closeTruthful ∧ ¬ delTruthful := by
  have h := demo_agrees eLost rfl
  have hx := C234_close_false sDemo eLost 7 0 (by simp [sDemo]) (by simp [eLost]) rfl (by simp [eLost])
  constructor
  · intro hc
    have := hc sDemo eLost 7 h.1 h.2 (by rw [hx.1]; simp)
    rw [hx.1] at this; simp [Gone, sDemo] at this
  · intro hc
    have := hc sDemo eLost 7 h.1 h.2 (by rw [hx.2]; simp)
    rw [hx.2] at this; simp [sDemo] at this

/-- **C234.** aosl_mpq_del_fd: an answer that is not negative is 0 and means the fd is no longer registered; a negative one is -1 with an error number; the fd
itself stays as open as it was, and no other registration is touched. Missing: the call that does not get through (`C234_close_false`). -/
theorem C234_del_true_partial (s : St) (e : Env) (fd : Nat) (ha : Agrees s fd) (ho : Others s e fd)
    (hc : s.tab fd = none ∨ OnOwner s e fd ∨ e.callErr = 0) :
    (((aoslDel s e fd).1 = 0 ∧ (aoslDel s e fd).2.tab fd = none) ∨ ((aoslDel s e fd).1 = -1 ∧ 0 < (aoslDel s e fd).2.errno)) ∧
    ∃ m, Met s e fd m ∧ (aoslDel s e fd).2.opened = m.opened ∧ ∀ x, x ≠ fd → (aoslDel s e fd).2.tab x = m.tab x := by
  have key : ∀ r : Int × St, -4095 ≤ r.1 → ((r.1 = 0 ∧ r.2.tab fd = none) ∨ r.1 < 0) →
      (((returnErr r).1 = 0 ∧ (returnErr r).2.tab fd = none) ∨ ((returnErr r).1 = -1 ∧ 0 < (returnErr r).2.errno)) := by
    intro r hr hg
    rcases returnErr_cases r hr with ⟨h1, h2⟩ | ⟨h1, h2, h3⟩
    · rw [h2]; rcases hg with hg | hg
      · exact .inl hg
      · omega
    · exact .inr ⟨h2, by omega⟩
  unfold aoslDel
  simp only [(returnErr_snd _).1, (returnErr_snd _).2.1]
  cases hid : s.tab fd with
  | none =>
    exact ⟨by simpa only [(returnErr_snd _).1] using key (-EBADF, s) (by simp [EBADF]) (.inr (by simp [EBADF])), s, .inl ⟨.inl hid, rfl⟩, rfl, fun _ _ => rfl⟩
  | some id =>
    simp only
    rcases via_cases s e fd id (fun s q => qDel s q id) hid ha ho with ⟨hv, hn⟩ | ⟨hv, hz, _, hn⟩ | ⟨m, hm, hf, hv⟩ <;> rw [hv]
    · exact ⟨by simpa only [(returnErr_snd _).1] using key (-EINVAL, s) (by simp [EINVAL]) (.inr (by simp [EINVAL])), s,
        .inr ⟨by simp [hid], hn, .inr rfl⟩, rfl, fun _ _ => rfl⟩
    · rcases hc with hc | hc | hc
      · simp [hid] at hc
      · exact absurd hc hn
      · exact absurd hc hz
    · have hs := qDel_shape m (s.obj id).q id fd hf
      exact ⟨by simpa only [(returnErr_snd _).1] using key _ hs.1 hs.2.2.2, m, hm, hs.2.2.1, hs.2.1⟩

/-- **C234.** On the owner's thread a registered fd is always unregistered: the answer is 0, its timer is off, it is in no queue's list; an fd that is not
registered is answered -1 with `AOSL_EBADF`. -/
theorem C234_del_exact (s : St) (e : Env) (fd : Nat) (ha : Agrees s fd) :
    (∀ id, s.tab fd = some id → e.me = some (s.obj id).q → (aoslDel s e fd).1 = 0 ∧ (aoslDel s e fd).2.tab fd = none ∧
      ((aoslDel s e fd).2.obj id).timer = false ∧ ((aoslDel s e fd).2.obj id).linked = false ∧ (aoslDel s e fd).2.opened = s.opened) ∧
    (s.tab fd = none → (aoslDel s e fd).1 = -1 ∧ (aoslDel s e fd).2.errno = 1009 ∧ (aoslDel s e fd).2.tab = s.tab ∧
      (aoslDel s e fd).2.opened = s.opened) := by
  constructor
  · intro id hid hme
    have hf := ha id hid
    simp [aoslDel, hid, viaQueue, hme, qDel, hf, setObj, returnErr]
  · intro hid
    simp [aoslDel, hid, returnErr, EBADF]

/-- **C234.** Of two threads that close the same registered fd through its queue, the one that comes second is told -1: the object has lost its number. -/
theorem C234_second_close (s : St) (e : Env) (fd id : Nat) (hid : s.tab fd = some id) (hm : e.me ≠ some (s.obj id).q) (hf : e.found = true)
    (hc : e.callErr = 0) (hn : ((e.between s).obj id).fd = none) (hq : ((e.between s).obj id).q = (s.obj id).q) :
    (aoslClose s e fd).1 = -1 ∧ (aoslClose s e fd).2.errno = 1064 ∧ (aoslClose s e fd).2.opened = (e.between s).opened ∧
    (aoslClose s e fd).2.tab = (e.between s).tab := by
  simp [aoslClose, hid, viaQueue, hm, hf, hc, thisQClose, qDel, hn, hq, setObj, returnErr, ENONET]

/-- The owner's thread closes fd 7; fd 8 stays open; a thread without a queue does the same through the queue; the platform refuses. -/
example : OnOwner sDemo ⟨some 1, true, 0, id, 0⟩ 7 ∧ (aoslClose sDemo ⟨some 1, true, 0, id, 0⟩ 7).1 = 0 ∧
    (aoslClose sDemo ⟨some 1, true, 0, id, 0⟩ 7).2.opened 7 = false ∧ (aoslClose sDemo ⟨some 1, true, 0, id, 0⟩ 7).2.opened 8 = true ∧
    (aoslClose sDemo ⟨none, true, 0, id, 0⟩ 7).1 = 0 ∧ (aoslClose sDemo ⟨none, true, 0, id, -1⟩ 7).1 = -1 ∧
    (aoslClose sDemo ⟨none, true, 0, id, -2002⟩ 7).2.errno = 1004 ∧ (aoslClose sDemo ⟨none, false, 0, id, 0⟩ 7).1 = -1 ∧
    (aoslClose sDemo ⟨none, true, 0, id, 0⟩ 8).1 = 0 ∧ (aoslDel sDemo ⟨none, true, 0, id, 0⟩ 7).1 = 0 ∧ (aoslDel sDemo ⟨none, true, 0, id, 0⟩ 8).1 = -1 := by
  refine ⟨⟨0, by decide, by decide⟩, ?_⟩; decide

/-- The platform's errors, an owner that has gone, and an object that has changed its owner: the hypotheses hold. -/
example : OnOwner sDemo ⟨some 1, true, 0, id, -2001⟩ 7 ∧ (aoslClose sDemo ⟨some 1, true, 0, id, -2001⟩ 7).2.errno = 1011 ∧
    (aoslClose sDemo ⟨some 2, false, 0, id, 0⟩ 7).2.errno = 1022 ∧
    (aoslDel sDemo ⟨some 2, true, 0, fun s => setObj s 0 ⟨some 7, 3, false, true⟩, 0⟩ 7).2.errno = 1001 := by
  refine ⟨⟨0, by decide, by decide⟩, ?_⟩; decide

/-- The first of two closes is done by the time the second one's work is: its hypotheses hold. -/
example : ((aoslClose sDemo ⟨some 1, true, 0, id, 0⟩ 7).2.obj 0).fd = none ∧ ((aoslClose sDemo ⟨some 1, true, 0, id, 0⟩ 7).2.obj 0).q = (sDemo.obj 0).q ∧
    (aoslClose sDemo ⟨none, true, 0, fun s => (aoslClose s ⟨some 1, true, 0, id, 0⟩ 7).2, 0⟩ 7).1 = -1 := by decide

end Verif.CloseApi
