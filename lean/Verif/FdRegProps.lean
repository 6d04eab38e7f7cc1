import Verif.FdReg
/-! # C197 (registration calls answer truthfully and leave nothing behind) and C198 (the time-out of a connect) -/

namespace Verif.FdReg

/-! ## Specification -/

/-- The registrations, pollers, lists, memory, timers, closed fds and events are as before: what a failed registration call must leave. -/
def Untouched (s s' : St) : Prop :=
  s'.tab = s.tab ∧ s'.polled = s.polled ∧ s'.lists = s.lists ∧ s'.blocks = s.blocks ∧ s'.timers = s.timers ∧ s'.closed = s.closed ∧ s'.told = s.told

/-- `fd` is registered with queue `q`: found, watched by the poller of that queue and of no other, in the list of that queue. -/
def Registered (s : St) (fd : Int) (q : Nat) (r : Reg) : Prop :=
  s.find fd = some r ∧ r.q = q ∧ (∀ q', (q', fd) ∈ s.polled ↔ q' = q) ∧ (∀ q', (q', fd) ∈ s.lists ↔ q' = q)

/-- No trace of `fd`. -/
def Unknown (s : St) (fd : Int) : Prop :=
  s.find fd = none ∧ (∀ q, (q, fd) ∉ s.polled) ∧ (∀ q, (q, fd) ∉ s.lists) ∧ (∀ t, (fd, t) ∉ s.timers)

/-- The event function unregistered or closed the fd when told that it is ready. -/
def GivenUp (e : Env) (p : Par) (k : Kind) : Prop := (∃ t, k = .connect t) ∧ 0 ≤ e.connect ∧ p.ev = true ∧ e.cb ≠ .leave

/-! ## Invariant -/

structure WF (s : St) : Prop where
  keys : (s.tab.map Prod.fst).Nodup
  pol : ∀ q fd, (q, fd) ∈ s.polled ↔ ∃ r, s.find fd = some r ∧ r.q = q
  lst : ∀ q fd, (q, fd) ∈ s.lists ↔ ∃ r, s.find fd = some r ∧ r.q = q
  blk : s.blocks = s.tab.length
  tim : ∀ fd t, (fd, t) ∈ s.timers → ∃ r, s.find fd = some r ∧ r.timer = true ∧ r.notReady = true

theorem find_none_iff (s : St) (fd : Int) : s.find fd = none ↔ ∀ p ∈ s.tab, p.1 ≠ fd := by
  unfold St.find
  simp [List.find?_eq_none]

theorem find_mem {s : St} {fd : Int} {r : Reg} (h : s.find fd = some r) : (fd, r) ∈ s.tab := by
  unfold St.find at h
  cases hf : s.tab.find? (fun p => p.1 == fd) with
  | none => simp [hf] at h
  | some p =>
    simp [hf] at h
    have h1 := List.mem_of_find?_eq_some hf
    have h2 := List.find?_some hf
    simp at h2
    obtain ⟨a, b⟩ := p
    simp at h h2
    subst h; subst h2
    exact h1

theorem find_of_mem {s : St} (hk : (s.tab.map Prod.fst).Nodup) {fd : Int} {r : Reg} (h : (fd, r) ∈ s.tab) : s.find fd = some r := by
  unfold St.find
  revert hk h
  generalize s.tab = l
  intro hk h
  induction l with
  | nil => simp at h
  | cons a l ih =>
    simp only [List.map_cons, List.nodup_cons] at hk
    rw [List.find?_cons]
    rcases List.mem_cons.1 h with h | h
    · subst h; simp
    · have : a.1 ≠ fd := by
        intro hc
        exact hk.1 (List.mem_map.2 ⟨(fd, r), h, hc.symm⟩)
      have hb : (a.1 == fd) = false := by simp [this]
      rw [hb]
      exact ih hk.2 h

theorem find_iff {s : St} (hk : (s.tab.map Prod.fst).Nodup) {fd : Int} {r : Reg} : s.find fd = some r ↔ (fd, r) ∈ s.tab :=
  ⟨find_mem, find_of_mem hk⟩

theorem nodup_filter_keys (l : List (Int × Reg)) (P : Int × Reg → Bool) (h : (l.map Prod.fst).Nodup) : ((l.filter P).map Prod.fst).Nodup :=
  h.sublist (List.Sublist.map _ List.filter_sublist)

theorem filter_len (l : List (Int × Reg)) (fd : Int) (h : (l.map Prod.fst).Nodup) (hm : ∃ r, (fd, r) ∈ l) :
    (l.filter (fun p => p.1 != fd)).length = l.length - 1 := by
  induction l with
  | nil => simp at hm
  | cons a l ih =>
    simp only [List.map_cons, List.nodup_cons] at h
    by_cases ha : a.1 = fd
    · have hf : l.filter (fun p => p.1 != fd) = l := by
        rw [List.filter_eq_self]
        intro p hp
        simp
        intro hc
        exact h.1 (List.mem_map.2 ⟨p, hp, by rw [hc, ha]⟩)
      simp [List.filter_cons, ha, hf]
    · obtain ⟨r, hr⟩ := hm
      have hr' : (fd, r) ∈ l := by
        rcases List.mem_cons.1 hr with h' | h'
        · exact absurd (by rw [← h']) ha
        · exact h'
      have := ih h.2 ⟨r, hr'⟩
      have hpos : 0 < l.length := List.length_pos_of_mem hr'
      simp [List.filter_cons, ha, this]
      omega

theorem find_qDel (s : St) (q : Nat) (fd fd' : Int) : (qDel s q fd).find fd' = if fd' = fd then none else s.find fd' := by
  unfold qDel St.find
  simp only
  split
  · rename_i h
    subst h
    simp [List.find?_eq_none]
  · rename_i h
    congr 1
    rw [List.find?_filter]
    congr 1
    funext p
    by_cases hp : p.1 = fd' <;> simp [hp, h]

theorem find_qClose (s : St) (q : Nat) (fd fd' : Int) : (qClose s q fd).find fd' = if fd' = fd then none else s.find fd' := find_qDel s q fd fd'

theorem find_upd (s : St) (fd fd' : Int) (f : Reg → Reg) : (upd s fd f).find fd' = if fd' = fd then (s.find fd').map f else s.find fd' := by
  unfold upd St.find
  simp only [List.find?_map]
  have : ((fun p : Int × Reg => p.1 == fd') ∘ fun p => if (p.1 == fd) = true then (p.1, f p.2) else p) = (fun p => p.1 == fd') := by
    funext p
    simp only [Function.comp]
    split <;> rfl
  rw [this]
  cases h : s.tab.find? (fun p => p.1 == fd') with
  | none => simp
  | some p =>
    have h2 := List.find?_some h
    simp at h2
    simp [h2]
    by_cases hc : fd' = fd <;> simp [hc]

theorem upd_keys (s : St) (fd : Int) (f : Reg → Reg) : (upd s fd f).tab.map Prod.fst = s.tab.map Prod.fst := by
  unfold upd
  simp only [List.map_map]
  congr 1
  funext p
  simp only [Function.comp]
  split <;> rfl

theorem wf_init : WF init := by
  constructor <;> simp [init, St.find]

theorem wf_qDel {s : St} (h : WF s) {q : Nat} {fd : Int} {r : Reg} (hf : s.find fd = some r) (hq : r.q = q) : WF (qDel s q fd) where
  keys := nodup_filter_keys _ _ h.keys
  pol := by
    intro q' fd'
    rw [find_qDel]
    show (q', fd') ∈ s.polled.filter _ ↔ _
    rw [List.mem_filter, h.pol]
    by_cases hc : fd' = fd
    · subst hc
      simp [hf]
      rintro rfl
      exact hq
    · simp [hc]
  lst := by
    intro q' fd'
    rw [find_qDel]
    show (q', fd') ∈ s.lists.filter _ ↔ _
    rw [List.mem_filter, h.lst]
    by_cases hc : fd' = fd
    · subst hc
      simp [hf]
      rintro rfl
      exact hq
    · simp [hc]
  blk := by
    show s.blocks - 1 = (s.tab.filter _).length
    rw [filter_len s.tab fd h.keys ⟨r, find_mem hf⟩, h.blk]
  tim := by
    intro fd' t ht
    rw [find_qDel]
    have ht' : (fd', t) ∈ s.timers.filter (fun p => p.1 != fd) := ht
    rw [List.mem_filter] at ht'
    have hne : fd' ≠ fd := by simpa using ht'.2
    simp [hne]
    exact h.tim fd' t ht'.1

theorem wf_closed {s : St} (h : WF s) (c : List Int) : WF { s with closed := c } := ⟨h.keys, h.pol, h.lst, h.blk, h.tim⟩
theorem wf_told {s : St} (h : WF s) (c : List (Int × Int)) : WF { s with told := c } := ⟨h.keys, h.pol, h.lst, h.blk, h.tim⟩
theorem wf_lsn {s : St} (h : WF s) (c : List Int) : WF { s with listening := c } := ⟨h.keys, h.pol, h.lst, h.blk, h.tim⟩
theorem wf_nb {s : St} (h : WF s) (c : List Int) : WF { s with nonblock := c } := ⟨h.keys, h.pol, h.lst, h.blk, h.tim⟩

theorem wf_qClose {s : St} (h : WF s) {q : Nat} {fd : Int} {r : Reg} (hf : s.find fd = some r) (hq : r.q = q) : WF (qClose s q fd) :=
  wf_closed (wf_qDel h hf hq) _

/-- Clearing the timer (and `notReady`) of an fd, together with its pending timers. -/
theorem wf_upd {s : St} (h : WF s) (fd : Int) (f : Reg → Reg) (hq : ∀ r, (f r).q = r.q) :
    WF { upd s fd f with timers := s.timers.filter (fun p => p.1 != fd) } where
  keys := by show ((upd s fd f).tab.map Prod.fst).Nodup; rw [upd_keys]; exact h.keys
  pol := by
    intro q' fd'
    show (q', fd') ∈ s.polled ↔ ∃ r, (upd s fd f).find fd' = some r ∧ _
    rw [find_upd, h.pol]
    split
    · constructor
      · rintro ⟨r, h1, h2⟩
        exact ⟨f r, by simp [h1], by rw [hq, h2]⟩
      · rintro ⟨r, h1, h2⟩
        cases hr : s.find fd' with
        | none => simp [hr] at h1
        | some r' =>
          simp [hr] at h1
          exact ⟨r', rfl, by rw [← hq, h1, h2]⟩
    · rfl
  lst := by
    intro q' fd'
    show (q', fd') ∈ s.lists ↔ ∃ r, (upd s fd f).find fd' = some r ∧ _
    rw [find_upd, h.lst]
    split
    · constructor
      · rintro ⟨r, h1, h2⟩
        exact ⟨f r, by simp [h1], by rw [hq, h2]⟩
      · rintro ⟨r, h1, h2⟩
        cases hr : s.find fd' with
        | none => simp [hr] at h1
        | some r' =>
          simp [hr] at h1
          exact ⟨r', rfl, by rw [← hq, h1, h2]⟩
    · rfl
  blk := by
    show s.blocks = (s.tab.map _).length
    rw [List.length_map, h.blk]
  tim := by
    intro fd' t ht
    show ∃ r, (upd s fd f).find fd' = some r ∧ _
    have ht' : (fd', t) ∈ s.timers.filter (fun p => p.1 != fd) := ht
    rw [List.mem_filter] at ht'
    have hne : fd' ≠ fd := by simpa using ht'.2
    rw [find_upd]
    simp [hne]
    exact h.tim fd' t ht'.1

/-- What a registration adds. -/
structure Added (s s' : St) (e : Env) (q : Nat) (p : Par) (nr lst : Bool) (timeo : Int) : Prop where
  new : s.find p.fd = none
  tab : s'.tab = (p.fd, ⟨q, p.args, p.ev, nr, lst, nr && decide (timeo ≥ 0) && e.timerOk⟩) :: s.tab
  pol : s'.polled = (q, p.fd) :: s.polled
  lst : s'.lists = s.lists ++ [(q, p.fd)]
  blk : s'.blocks = s.blocks + 1
  tim : s'.timers = if nr && decide (timeo ≥ 0) && e.timerOk then (p.fd, e.now + timeo.toNat) :: s.timers else s.timers
  cls : s'.closed = s.closed
  tld : s'.told = s.told

theorem halErr_lo (r : Int) (h : r < 0) : halErr r < 0 ∧ -4095 ≤ halErr r := by
  unfold halErr
  simp only [h, if_true]
  split
  · omega
  · split
    · omega
    · split <;> omega

/-- The refusals come before anything is done. -/
theorem addFd_spec (s : St) (e : Env) (q : Q) (p : Par) (chk : Bool) (extra : Nat) (nr lst : Bool) (timeo : Int) (hfd : p.fd ≠ -1) :
    (∃ r s', addFd s e q p chk extra nr lst timeo = .ok r s' ∧ r < 0 ∧ -4095 ≤ r ∧ Untouched s s' ∧ s'.listening = s.listening) ∨
    (∃ s', addFd s e q p chk extra nr lst timeo = .ok 0 s' ∧ Added s s' e q.id p nr lst timeo ∧ s'.listening = s.listening) := by
  have U : Untouched s s := ⟨rfl, rfl, rfl, rfl, rfl, rfl, rfl⟩
  generalize ho : addFd s e q p chk extra nr lst timeo = o
  unfold addFd at ho
  by_cases c1 : q.sig = true
  · rw [if_pos c1] at ho
    exact .inl ⟨_, _, ho.symm, by decide, by decide, U, rfl⟩
  rw [if_neg c1] at ho
  by_cases c2 : (chk && decide (p.size < 1024) || decide (p.size > 4194304)) = true
  · rw [if_pos c2] at ho
    exact .inl ⟨_, _, ho.symm, by decide, by decide, U, rfl⟩
  rw [if_neg c2] at ho
  by_cases c3 : extra ≥ 4096
  · rw [if_pos c3] at ho
    exact .inl ⟨_, _, ho.symm, by decide, by decide, U, rfl⟩
  rw [if_neg c3] at ho
  by_cases c4 : (!p.data) = true
  · rw [if_pos c4] at ho
    exact .inl ⟨_, _, ho.symm, by decide, by decide, U, rfl⟩
  rw [if_neg c4] at ho
  by_cases c5 : p.fd ≠ -1 ∧ (s.find p.fd).isSome = true
  · rw [if_pos c5] at ho
    exact .inl ⟨_, _, ho.symm, by decide, by decide, U, rfl⟩
  rw [if_neg c5] at ho
  by_cases c6 : (!e.mem) = true
  · rw [if_pos c6] at ho
    exact .inl ⟨_, _, ho.symm, by decide, by decide, U, rfl⟩
  rw [if_neg c6] at ho
  have hnew : s.find p.fd = none := by
    cases hc : s.find p.fd with
    | none => rfl
    | some r => exact absurd ⟨hfd, by simp [hc]⟩ c5
  rw [if_neg hfd] at ho
  simp only at ho
  generalize hs0 : (if (e.nb && !s.nonblock.contains p.fd) = true then { s with nonblock := p.fd :: s.nonblock } else s) = s0 at ho
  have H : s0.tab = s.tab ∧ s0.polled = s.polled ∧ s0.lists = s.lists ∧ s0.blocks = s.blocks ∧ s0.timers = s.timers ∧ s0.closed = s.closed ∧
      s0.told = s.told ∧ s0.listening = s.listening := by
    rw [← hs0]
    by_cases c : (e.nb && !s.nonblock.contains p.fd) = true
    · rw [if_pos c]; exact ⟨rfl, rfl, rfl, rfl, rfl, rfl, rfl, rfl⟩
    · rw [if_neg c]; exact ⟨rfl, rfl, rfl, rfl, rfl, rfl, rfl, rfl⟩
  obtain ⟨h1, h2, h3, h4, h5, h6, h7, h8⟩ := H
  by_cases hp : e.poll < 0
  · rw [if_pos hp] at ho
    refine .inl ⟨_, _, ho.symm, (halErr_lo _ hp).1, (halErr_lo _ hp).2, ⟨?_, h2, h3, ?_, h5, h6, h7⟩, h8⟩
    · simp only [List.filter_cons]
      simp only [bne_self_eq_false, Bool.false_eq_true, if_false]
      rw [h1, List.filter_eq_self]
      intro a ha
      have := (find_none_iff s p.fd).1 hnew a ha
      simp [this]
    · show s0.blocks + 1 - 1 = _
      omega
  · rw [if_neg hp] at ho
    refine .inr ⟨_, ho.symm, ⟨hnew, ?_, ?_, ?_, ?_, ?_, ?_, ?_⟩, ?_⟩ <;>
      by_cases c : (nr && decide (timeo ≥ 0) && e.timerOk) = true <;> simp only [c, if_true, if_false] <;> simp only [h1, h2, h3, h4, h5, h6, h7, h8] <;> rfl

theorem find_added {s s' : St} {e : Env} {q : Nat} {p : Par} {nr lst : Bool} {timeo : Int} (h : Added s s' e q p nr lst timeo) (fd : Int) :
    s'.find fd = if fd = p.fd then some ⟨q, p.args, p.ev, nr, lst, nr && decide (timeo ≥ 0) && e.timerOk⟩ else s.find fd := by
  unfold St.find
  rw [h.tab, List.find?_cons]
  by_cases hc : fd = p.fd
  · subst hc; simp
  · have : (p.fd == fd) = false := by simp; exact fun h => hc h.symm
    simp [this, hc]

theorem wf_added {s s' : St} {e : Env} {q : Nat} {p : Par} {nr lst : Bool} {timeo : Int} (hw : WF s) (h : Added s s' e q p nr lst timeo) : WF s' where
  keys := by
    rw [h.tab]
    simp only [List.map_cons, List.nodup_cons]
    refine ⟨?_, hw.keys⟩
    intro hc
    obtain ⟨a, ha, he⟩ := List.mem_map.1 hc
    exact (find_none_iff s p.fd).1 h.new a ha he
  pol := by
    intro q' fd'
    rw [find_added h, h.pol, List.mem_cons, hw.pol]
    by_cases hc : fd' = p.fd
    · subst hc
      simp [h.new]
      exact eq_comm
    · simp [hc]
  lst := by
    intro q' fd'
    rw [find_added h, h.lst, List.mem_append, hw.lst]
    by_cases hc : fd' = p.fd
    · subst hc
      simp [h.new]
      exact eq_comm
    · simp [hc]
  blk := by rw [h.blk, h.tab, hw.blk]; rfl
  tim := by
    intro fd' t ht
    rw [find_added h]
    rw [h.tim] at ht
    split at ht
    · rename_i ha
      rcases List.mem_cons.1 ht with ht | ht
      · cases ht
        simp at ha
        simp [ha]
      · have hne : fd' ≠ p.fd := by
          rintro rfl
          obtain ⟨r, hr, _⟩ := hw.tim _ _ ht
          rw [h.new] at hr
          cases hr
        simp only [hne, if_false]
        exact hw.tim _ _ ht
    · have hne : fd' ≠ p.fd := by
        rintro rfl
        obtain ⟨r, hr, _⟩ := hw.tim _ _ ht
        rw [h.new] at hr
        cases hr
      simp only [hne, if_false]
      exact hw.tim _ _ ht

theorem wf_untouched {s s' : St} (hw : WF s) (h : Untouched s s') : WF s' := by
  obtain ⟨h1, h2, h3, h4, h5, _, _⟩ := h
  have hf : ∀ fd, s'.find fd = s.find fd := fun fd => by unfold St.find; rw [h1]
  exact ⟨by rw [h1]; exact hw.keys, by intro q fd; rw [h2, hf]; exact hw.pol q fd, by intro q fd; rw [h3, hf]; exact hw.lst q fd, by rw [h4, h1]; exact hw.blk,
    by intro fd t; rw [h5, hf]; exact hw.tim fd t⟩

/-- Registering and unregistering again leaves what there was. -/
theorem qDel_added {s s' : St} {e : Env} {q : Nat} {p : Par} {nr lst : Bool} {timeo : Int} (hw : WF s) (h : Added s s' e q p nr lst timeo) :
    Untouched s (qDel s' q p.fd) := by
  have hn := (find_none_iff s p.fd).1 h.new
  refine ⟨?_, ?_, ?_, ?_, ?_, h.cls, h.tld⟩
  · show s'.tab.filter _ = _
    rw [h.tab, List.filter_cons]
    simp only [bne_self_eq_false, Bool.false_eq_true, if_false]
    rw [List.filter_eq_self]
    intro a ha
    simp [hn a ha]
  · show s'.polled.filter _ = _
    rw [h.pol, List.filter_cons]
    simp only [bne_self_eq_false, Bool.false_eq_true, if_false]
    rw [List.filter_eq_self]
    intro a ha
    simp
    rintro rfl
    obtain ⟨r, hr, _⟩ := (hw.pol _ _).1 ha
    rw [h.new] at hr
    cases hr
  · show s'.lists.filter _ = _
    rw [h.lst, List.filter_append]
    simp only [List.filter_cons, bne_self_eq_false, Bool.false_eq_true, if_false, List.filter_nil, List.append_nil]
    rw [List.filter_eq_self]
    intro a ha
    simp
    rintro rfl
    obtain ⟨r, hr, _⟩ := (hw.lst _ _).1 ha
    rw [h.new] at hr
    cases hr
  · show s'.blocks - 1 = _
    rw [h.blk]
    omega
  · show s'.timers.filter _ = _
    have ht : s.timers.filter (fun a => a.1 != p.fd) = s.timers := by
      rw [List.filter_eq_self]
      intro a ha
      simp
      rintro hc
      obtain ⟨r, hr, _⟩ := hw.tim a.1 a.2 ha
      rw [hc, h.new] at hr
      cases hr
    rw [h.tim]
    split
    · rw [List.filter_cons]
      simp [ht]
    · exact ht

theorem find_told (s : St) (c : List (Int × Int)) (fd : Int) : ({ s with told := c } : St).find fd = s.find fd := rfl

/-- The state in which the event function of `ready` is called. -/
def readied (s : St) (fd : Int) (r : Reg) : St :=
  if r.notReady then { upd s fd (fun r => { r with notReady := false, timer := false }) with timers := s.timers.filter (fun p => p.1 != fd) } else s

theorem wf_readied {s : St} (h : WF s) (fd : Int) (r : Reg) : WF (readied s fd r) := by
  unfold readied
  split
  · exact wf_upd h fd _ (fun _ => rfl)
  · exact h

theorem find_readied {s : St} {fd : Int} {r : Reg} (hf : s.find fd = some r) (fd' : Int) : (readied s fd r).find fd' =
    if fd' = fd then some { r with notReady := false, timer := if r.notReady then false else r.timer } else s.find fd' := by
  unfold readied
  by_cases c : r.notReady = true
  · simp only [c, if_true]
    show (upd s fd (fun r => { r with notReady := false, timer := false })).find fd' = _
    rw [find_upd]
    by_cases hc : fd' = fd
    · subst hc; simp [hf]
    · simp [hc]
  · simp only [c, if_false]
    by_cases hc : fd' = fd
    · subst hc
      simp [hf]
      cases r
      simp_all
    · simp [hc]

theorem ready_eq {s : St} {fd : Int} {r : Reg} (hf : s.find fd = some r) (cb : Cb) : ready s fd cb =
    if r.ev then
      match cb with
      | .leave => { readied s fd r with told := (fd, READY) :: (readied s fd r).told }
      | .del => qDel { readied s fd r with told := (fd, READY) :: (readied s fd r).told } r.q fd
      | .close => qClose { readied s fd r with told := (fd, READY) :: (readied s fd r).told } r.q fd
    else readied s fd r := by
  unfold ready readied
  rw [hf]
  cases cb <;> rfl

theorem wf_ready {s : St} (h : WF s) (fd : Int) (cb : Cb) : WF (ready s fd cb) := by
  cases hf : s.find fd with
  | none => unfold ready; rw [hf]; exact h
  | some r =>
    rw [ready_eq hf]
    have hw := wf_readied h fd r
    have hw' := wf_told hw ((fd, READY) :: (readied s fd r).told)
    have hfr : ({ readied s fd r with told := (fd, READY) :: (readied s fd r).told } : St).find fd =
        some { r with notReady := false, timer := if r.notReady then false else r.timer } := by
      rw [find_told, find_readied hf]; simp
    split
    · cases cb
      · exact hw'
      · exact wf_qDel hw' hfr rfl
      · exact wf_qClose hw' hfr rfl
    · exact hw

theorem wf_eventClose {s : St} (h : WF s) {fd : Int} {r : Reg} (hf : s.find fd = some r) (err : Int) (cb : Cb) : WF (eventClose s fd r err cb) := by
  unfold eventClose
  have hw' := wf_told h ((fd, err) :: s.told)
  split
  · cases cb
    · exact wf_qClose hw' hf rfl
    · exact wf_qDel hw' hf rfl
    · exact wf_qClose hw' hf rfl
  · exact wf_qClose h hf rfl

theorem find_eventClose (s : St) (fd : Int) (r : Reg) (err : Int) (cb : Cb) (fd' : Int) :
    (eventClose s fd r err cb).find fd' = if fd' = fd then none else s.find fd' := by
  unfold eventClose
  split
  · cases cb <;> simp only [find_qClose, find_qDel] <;> rfl
  · exact find_qClose s r.q fd fd'

theorem wf_timeout {s : St} (h : WF s) (fd : Int) (cb : Cb) : WF (timeout s fd cb) := by
  unfold timeout
  cases hf : s.find fd with
  | none => exact h
  | some r =>
    simp only
    split
    · exact wf_upd (wf_eventClose h hf _ cb) fd _ (fun _ => rfl)
    · exact wf_upd h fd _ (fun _ => rfl)

theorem wf_step {s : St} (h : WF s) (fd : Int) (o : Op) : WF (step fd s o) := by
  cases o with
  | writable cb => exact wf_ready h fd cb
  | error e cb =>
    unfold step
    cases hf : s.find fd with
    | none => exact h
    | some r => exact wf_eventClose h hf e cb
  | time t cb =>
    unfold step
    simp only
    split
    · exact wf_timeout h fd cb
    · exact h
  | del =>
    unfold step
    cases hf : s.find fd with
    | none => exact h
    | some r => exact wf_qDel h hf rfl
  | close =>
    unfold step
    cases hf : s.find fd with
    | none => exact wf_closed h _
    | some r => exact wf_qClose h hf rfl

/-- What one registration on the queue's thread amounts to. -/
inductive Res (s : St) (e : Env) (q : Nat) (p : Par) (k : Kind) : Int → St → Prop
  | failed (r : Int) (s' : St) (h : r < 0) (h' : -4095 ≤ r) (u : Untouched s s') : Res s e q p k r s'
  | plain (s' : St) (lst : Bool) (hl : lst = true ↔ k = .listen) (hk : ∀ t, k ≠ .connect t) (a : Added s s' e q p false lst (-1)) : Res s e q p k 0 s'
  | pending (s' : St) (t : Int) (hk : k = .connect t) (hc : e.connect = -2003) (a : Added s s' e q p true false t) : Res s e q p k 0 s'
  | ready (s1 : St) (t : Int) (hk : k = .connect t) (hc : 0 ≤ e.connect) (a : Added s s1 e q p true false t) : Res s e q p k 0 (ready s1 p.fd e.cb)

theorem untouched_lsn {s s' : St} (c : List Int) (u : Untouched { s with listening := c } s') : Untouched s s' := u
theorem added_lsn {s s' : St} {c : List Int} {e : Env} {q : Nat} {p : Par} {sz : Nat} {nr lst : Bool} {timeo : Int}
    (a : Added { s with listening := c } s' e q { p with size := sz } nr lst timeo) : Added s s' e q p nr lst timeo :=
  ⟨a.new, a.tab, a.pol, a.lst, a.blk, a.tim, a.cls, a.tld⟩

theorem onQueue_spec (s : St) (hw : WF s) (e : Env) (q : Q) (p : Par) (k : Kind) (hfd : p.fd ≠ -1) :
    ∃ r s', onQueue s e q p k = .ok r s' ∧ Res s e q.id p k r s' := by
  cases k with
  | fd =>
    unfold onQueue
    rcases addFd_spec s e q p p.chk 0 false false (-1) hfd with ⟨r, s', h, h1, h2, h3, _⟩ | ⟨s', h, h1, _⟩
    · exact ⟨r, s', h, .failed r s' h1 h2 h3⟩
    · exact ⟨0, s', h, .plain s' false (by simp) (by simp) h1⟩
  | stream =>
    unfold onQueue
    rcases addFd_spec s e q p p.chk 0 false false (-1) hfd with ⟨r, s', h, h1, h2, h3, _⟩ | ⟨s', h, h1, _⟩
    · exact ⟨r, s', h, .failed r s' h1 h2 h3⟩
    · exact ⟨0, s', h, .plain s' false (by simp) (by simp) h1⟩
  | dgram =>
    unfold onQueue
    rcases addFd_spec s e q p false 64 false false (-1) hfd with ⟨r, s', h, h1, h2, h3, _⟩ | ⟨s', h, h1, _⟩
    · exact ⟨r, s', h, .failed r s' h1 h2 h3⟩
    · exact ⟨0, s', h, .plain s' false (by simp) (by simp) h1⟩
  | listen =>
    unfold onQueue
    simp only
    split
    · rename_i hl
      exact ⟨_, _, rfl, .failed _ _ (halErr_lo _ hl).1 (halErr_lo _ hl).2 ⟨rfl, rfl, rfl, rfl, rfl, rfl, rfl⟩⟩
    · rcases addFd_spec { s with listening := p.fd :: s.listening } e q { p with size := 64 } false 0 false true (-1) hfd with
        ⟨r, s', h, h1, h2, h3, _⟩ | ⟨s', h, h1, _⟩
      · exact ⟨r, s', h, .failed r s' h1 h2 (untouched_lsn _ h3)⟩
      · exact ⟨0, s', h, .plain s' true (by simp) (by simp) (added_lsn h1)⟩
  | connect t =>
    unfold onQueue
    rcases addFd_spec s e q p p.chk 0 true false t hfd with ⟨r, s', h, h1, h2, h3, _⟩ | ⟨s', h, h1, _⟩
    · refine ⟨r, s', ?_, .failed r s' h1 h2 h3⟩
      simp only [h, h1, if_true]
    · simp only [h]
      simp only [Int.lt_irrefl, if_false]
      unfold doConnect
      by_cases c : e.connect < 0
      · rw [if_pos c]
        by_cases c' : e.connect = -2003
        · rw [if_pos c']
          exact ⟨_, _, rfl, .pending s' t rfl c' h1⟩
        · rw [if_neg c']
          exact ⟨_, _, rfl, .failed _ _ (halErr_lo _ c).1 (halErr_lo _ c).2 (qDel_added hw h1)⟩
      · rw [if_neg c]
        exact ⟨_, _, rfl, .ready s' t rfl (by omega) h1⟩

theorem wf_res {s s' : St} {e : Env} {q : Nat} {p : Par} {k : Kind} {r : Int} (hw : WF s) (h : Res s e q p k r s') : WF s' := by
  cases h with
  | failed r s' h h' u => exact wf_untouched hw u
  | plain s' lst hl hk a => exact wf_added hw a
  | pending s' t hk hc a => exact wf_added hw a
  | ready s1 t hk hc a => exact wf_ready (wf_added hw a) p.fd e.cb

/-- fd -1 can only be refused or be undefined. -/
theorem addFd_bad (s : St) (e : Env) (q : Q) (p : Par) (chk : Bool) (extra : Nat) (nr lst : Bool) (timeo : Int) (hfd : p.fd = -1) :
    addFd s e q p chk extra nr lst timeo = .ub ∨ ∃ r, addFd s e q p chk extra nr lst timeo = .ok r s ∧ r < 0 ∧ -4095 ≤ r := by
  generalize ho : addFd s e q p chk extra nr lst timeo = o
  unfold addFd at ho
  by_cases c1 : q.sig = true
  · rw [if_pos c1] at ho
    exact .inr ⟨_, ho.symm, by decide, by decide⟩
  rw [if_neg c1] at ho
  by_cases c2 : (chk && decide (p.size < 1024) || decide (p.size > 4194304)) = true
  · rw [if_pos c2] at ho
    exact .inr ⟨_, ho.symm, by decide, by decide⟩
  rw [if_neg c2] at ho
  by_cases c3 : extra ≥ 4096
  · rw [if_pos c3] at ho
    exact .inr ⟨_, ho.symm, by decide, by decide⟩
  rw [if_neg c3] at ho
  by_cases c4 : (!p.data) = true
  · rw [if_pos c4] at ho
    exact .inr ⟨_, ho.symm, by decide, by decide⟩
  rw [if_neg c4] at ho
  by_cases c5 : p.fd ≠ -1 ∧ (s.find p.fd).isSome = true
  · exact absurd hfd c5.1
  rw [if_neg c5] at ho
  by_cases c6 : (!e.mem) = true
  · rw [if_pos c6] at ho
    exact .inr ⟨_, ho.symm, by decide, by decide⟩
  rw [if_neg c6, if_pos hfd] at ho
  exact .inl ho.symm

theorem onQueue_bad (s : St) (e : Env) (q : Q) (p : Par) (k : Kind) (hfd : p.fd = -1) :
    onQueue s e q p k = .ub ∨ ∃ r s', onQueue s e q p k = .ok r s' ∧ r < 0 ∧ -4095 ≤ r ∧ Untouched s s' := by
  have U : Untouched s s := ⟨rfl, rfl, rfl, rfl, rfl, rfl, rfl⟩
  cases k with
  | fd =>
    unfold onQueue
    rcases addFd_bad s e q p p.chk 0 false false (-1) hfd with h | ⟨r, h, h1, h2⟩
    · exact .inl h
    · exact .inr ⟨r, s, h, h1, h2, U⟩
  | stream =>
    unfold onQueue
    rcases addFd_bad s e q p p.chk 0 false false (-1) hfd with h | ⟨r, h, h1, h2⟩
    · exact .inl h
    · exact .inr ⟨r, s, h, h1, h2, U⟩
  | dgram =>
    unfold onQueue
    rcases addFd_bad s e q p false 64 false false (-1) hfd with h | ⟨r, h, h1, h2⟩
    · exact .inl h
    · exact .inr ⟨r, s, h, h1, h2, U⟩
  | listen =>
    unfold onQueue
    simp only
    split
    · rename_i hl
      exact .inr ⟨_, _, rfl, (halErr_lo _ hl).1, (halErr_lo _ hl).2, U⟩
    · rcases addFd_bad { s with listening := p.fd :: s.listening } e q { p with size := 64 } false 0 false true (-1) hfd with h | ⟨r, h, h1, h2⟩
      · exact .inl h
      · exact .inr ⟨r, _, h, h1, h2, ⟨rfl, rfl, rfl, rfl, rfl, rfl, rfl⟩⟩
  | connect t =>
    unfold onQueue
    rcases addFd_bad s e q p p.chk 0 true false t hfd with h | ⟨r, h, h1, h2⟩
    · simp only [h]; exact .inl trivial
    · simp only [h, h1, if_true]; exact .inr ⟨r, s, rfl, h1, h2, U⟩

theorem wf_onQueue {s s' : St} (hw : WF s) {e : Env} {q : Q} {p : Par} {k : Kind} {r : Int} (h : onQueue s e q p k = .ok r s') : WF s' := by
  by_cases hfd : p.fd = -1
  · rcases onQueue_bad s e q p k hfd with h' | ⟨r', s2, h', _, _, u⟩
    · rw [h'] at h; cases h
    · rw [h'] at h; cases h; exact wf_untouched hw u
  · obtain ⟨r', s2, h', hr⟩ := onQueue_spec s hw e q p k hfd
    rw [h'] at h; cases h
    exact wf_res hw hr

theorem wf_call {s s' : St} (hw : WF s) {e : Env} {q : Option Q} {p : Par} {k : Kind} {r : Int} (h : call s e q p k = .ok r s') : WF s' := by
  unfold call at h
  split at h
  · cases h; exact hw
  · cases q with
    | none => cases h; exact hw
    | some q =>
      simp only at h
      cases ho : onQueue s e q p k with
      | ub => rw [ho] at h; cases h
      | ok r' s2 => rw [ho] at h; cases h; exact wf_onQueue hw ho

theorem wf_callOn {s s' : St} (hw : WF s) {e : Env} {q : Option Q} {p : Par} {k : Kind} {c : Nat} {r : Int} (h : callOn s e q p k c = .ok r s') : WF s' := by
  unfold callOn at h
  split at h
  · cases h; exact hw
  · cases q with
    | none => cases h; exact hw
    | some q =>
      simp only at h
      split at h
      · cases h; exact hw
      · cases hc : carried k p.args with
        | none => rw [hc] at h; cases h
        | some args =>
          rw [hc] at h
          simp only at h
          cases ho : onQueue s e q { p with args := args } k with
          | ub => rw [ho] at h; cases h
          | ok r' s2 => rw [ho] at h; cases h; exact wf_onQueue hw ho

theorem wf_hist (as : List Act) : ∀ (s s' : St), WF s → hist s as = some s' → WF s' := by
  induction as with
  | nil => intro s s' hw h; cases h; exact hw
  | cons a as ih =>
    intro s s' hw h
    cases a with
    | call e q p k =>
      unfold hist at h
      cases hc : call s e q p k with
      | ub => rw [hc] at h; cases h
      | ok r s2 => rw [hc] at h; exact ih _ _ (wf_call hw hc) h
    | callOn e q p k c =>
      unfold hist at h
      cases hc : callOn s e q p k c with
      | ub => rw [hc] at h; cases h
      | ok r s2 => rw [hc] at h; exact ih _ _ (wf_callOn hw hc) h
    | op fd o => exact ih _ _ (wf_step hw fd o) h

/-! ## C197 -/

/-- What C197 asks of a call for `fd` and queue `q` that carries the arguments `args`, given its answer and the states before and after. -/
def Truthful (s s' : St) (e : Env) (q : Option Q) (p : Par) (k : Kind) (r : Int) : Prop :=
  (r = -1 ∧ Untouched s s') ∨
  (r = 0 ∧ Unknown s p.fd ∧ (∀ fd, fd ≠ p.fd → s'.find fd = s.find fd) ∧
    ∃ q0, q = some q0 ∧ ((∃ reg, Registered s' p.fd q0.id reg ∧ reg.args = p.args ∧ reg.ev = p.ev ∧ (reg.lst = true ↔ k = .listen)) ∨
      (GivenUp e p k ∧ Unknown s' p.fd)))

theorem unknown_of_none {s : St} (hw : WF s) {fd : Int} (h : s.find fd = none) : Unknown s fd := by
  refine ⟨h, ?_, ?_, ?_⟩
  · intro q hc
    obtain ⟨r, hr, _⟩ := (hw.pol q fd).1 hc
    rw [h] at hr; cases hr
  · intro q hc
    obtain ⟨r, hr, _⟩ := (hw.lst q fd).1 hc
    rw [h] at hr; cases hr
  · intro t hc
    obtain ⟨r, hr, _⟩ := hw.tim fd t hc
    rw [h] at hr; cases hr

theorem registered_of_find {s : St} (hw : WF s) {fd : Int} {r : Reg} (h : s.find fd = some r) : Registered s fd r.q r := by
  refine ⟨h, rfl, ?_, ?_⟩
  · intro q'
    rw [hw.pol, h]
    simp
    exact eq_comm
  · intro q'
    rw [hw.lst, h]
    simp
    exact eq_comm

theorem retErr_neg {r : Int} (h : r < 0) (h' : -4095 ≤ r) : retErr r = -1 := by
  unfold retErr
  rw [if_pos ⟨h', h⟩]

theorem truthful_res {s s' : St} (hw : WF s) {e : Env} {q : Q} {p : Par} {k : Kind} {r : Int} (h : Res s e q.id p k r s') :
    Truthful s s' e (some q) p k (retErr r) := by
  have hw' := wf_res hw h
  cases h with
  | failed r s' h h' u => exact .inl ⟨retErr_neg h h', u⟩
  | plain s' lst hl hk a =>
    refine .inr ⟨rfl, unknown_of_none hw a.new, ?_, q, rfl, .inl ⟨_, registered_of_find hw' (by rw [find_added a, if_pos rfl]), rfl, rfl, hl⟩⟩
    intro fd hne
    rw [find_added a, if_neg hne]
  | pending s' t hk hc a =>
    refine .inr ⟨rfl, unknown_of_none hw a.new, ?_, q, rfl, .inl ⟨_, registered_of_find hw' (by rw [find_added a, if_pos rfl]), rfl, rfl, by simp [hk]⟩⟩
    intro fd hne
    rw [find_added a, if_neg hne]
  | ready s1 t hk hc a =>
    have hf := find_added a p.fd
    rw [if_pos rfl] at hf
    have E := ready_eq hf e.cb
    refine .inr ⟨rfl, unknown_of_none hw a.new, ?_, q, rfl, ?_⟩
    · intro fd hne
      have h1 : (readied s1 p.fd ⟨q.id, p.args, p.ev, true, false, true && decide (t ≥ 0) && e.timerOk⟩).find fd = s.find fd := by
        rw [find_readied hf, if_neg hne, find_added a, if_neg hne]
      rw [E]
      split
      · cases e.cb
        · exact h1
        · rw [find_qDel, if_neg hne]; exact h1
        · rw [find_qClose, if_neg hne]; exact h1
      · exact h1
    · by_cases hev : p.ev = true
      · by_cases hcb : e.cb = .leave
        · left
          have hfr : (ready s1 p.fd e.cb).find p.fd = some ⟨q.id, p.args, p.ev, false, false, false⟩ := by
            rw [E, hcb]
            simp only
            rw [if_pos hev, find_told, find_readied hf, if_pos rfl]
            rfl
          exact ⟨_, registered_of_find hw' hfr, rfl, rfl, by simp [hk]⟩
        · right
          refine ⟨⟨⟨t, hk⟩, hc, hev, hcb⟩, unknown_of_none hw' ?_⟩
          rw [E]
          simp only [hev, if_true]
          cases hcb' : e.cb with
          | leave => exact absurd hcb' hcb
          | del => simp only [find_qDel, if_true]
          | close => simp only [find_qClose, if_true]
      · left
        have hfr : (ready s1 p.fd e.cb).find p.fd = some ⟨q.id, p.args, p.ev, false, false, false⟩ := by
          rw [E, if_neg hev, find_readied hf, if_pos rfl]
          rfl
        exact ⟨_, registered_of_find hw' hfr, rfl, rfl, by simp [hk]⟩

/-- **C197**, calls on the current queue, after any history: for every fd but -1, the answer is -1 and nothing is left behind, or it is 0, the fd was not registered
and now is, with this queue and these arguments and nothing else changed (unless the event function gave it up during the call). -/
theorem C197_current_partial (as : List Act) (s : St) (hs : hist init as = some s) (e : Env) (q : Option Q) (p : Par) (k : Kind) (hfd : p.fd ≠ -1) :
    ∃ r s', call s e q p k = .ok r s' ∧ Truthful s s' e q p k r := by
  have hw := wf_hist as _ _ wf_init hs
  have U : Untouched s s := ⟨rfl, rfl, rfl, rfl, rfl, rfl, rfl⟩
  unfold call
  split
  · exact ⟨_, _, rfl, .inl ⟨by decide, U⟩⟩
  · cases q with
    | none => exact ⟨_, _, rfl, .inl ⟨by decide, U⟩⟩
    | some q =>
      obtain ⟨r, s', h, hr⟩ := onQueue_spec s hw e q p k hfd
      simp only [h]
      exact ⟨_, _, rfl, truthful_res hw hr⟩

/-- **C197**, calls for another queue, after any history: as above for all calls but connect (C72), and, for the plain fds, if the call to the queue is not refused.
The error numbers of refused calls are between 1 and 4095. -/
theorem C197_other_queue_partial (as : List Act) (s : St) (hs : hist init as = some s) (e : Env) (q : Option Q) (p : Par) (k : Kind) (c : Nat) (hfd : p.fd ≠ -1)
    (hk : ∀ t, k ≠ .connect t) (hc : c ≤ 4095) (hk' : k = .fd → c = 0) : ∃ r s', callOn s e q p k c = .ok r s' ∧ Truthful s s' e q p k r := by
  have hw := wf_hist as _ _ wf_init hs
  have U : Untouched s s := ⟨rfl, rfl, rfl, rfl, rfl, rfl, rfl⟩
  unfold callOn
  split
  · exact ⟨_, _, rfl, .inl ⟨by decide, U⟩⟩
  · cases q with
    | none => exact ⟨_, _, rfl, .inl ⟨by decide, U⟩⟩
    | some q =>
      simp only
      by_cases c0 : c = 0
      · have hca : carried k p.args = some p.args := by
          cases k <;> first | rfl | exact absurd rfl (hk _)
        rw [if_neg (by simpa using c0), hca]
        obtain ⟨r, s', h, hr⟩ := onQueue_spec s hw e q p k hfd
        simp only [h]
        exact ⟨_, _, rfl, truthful_res hw hr⟩
      · have hkf : k ≠ .fd := fun h => c0 (hk' h)
        rw [if_pos c0, if_neg hkf]
        exact ⟨_, _, rfl, .inl ⟨retErr_neg (by omega) (by omega), U⟩⟩

/-- **C197**: with what it takes, the call succeeds: arguments allowed, a queue that can have fds, an fd not registered, memory, a poller that takes it, and a socket
that listens or connects. -/
theorem C197_succeeds (as : List Act) (s : St) (hs : hist init as = some s) (e : Env) (q : Q) (p : Par) (k : Kind) (hfd : p.fd ≠ -1) (hn : s.find p.fd = none)
    (hargs : p.args.length ≤ 64) (hsig : q.sig = false) (hsz : p.size ≤ 4194304) (hchk : p.chk = true → 1024 ≤ p.size) (hd : p.data = true)
    (hm : e.mem = true) (hp : 0 ≤ e.poll) (hl : k = .listen → 0 ≤ e.listen) (hcn : ∀ t, k = .connect t → 0 ≤ e.connect ∨ e.connect = -2003) :
    ∃ s', call s e (some q) p k = .ok 0 s' := by
  have hw := wf_hist as _ _ wf_init hs
  have A : ∀ (s : St) (p : Par) (chk : Bool) (extra : Nat) (nr lst : Bool) (timeo : Int), p.fd ≠ -1 → s.find p.fd = none → p.size ≤ 4194304 →
      (chk = true → 1024 ≤ p.size) → p.data = true → extra < 4096 → ∃ s', addFd s e q p chk extra nr lst timeo = .ok 0 s' := by
    intro s p chk extra nr lst timeo h1 h2 h3 h4 h5 h6
    unfold addFd
    have c2 : ¬ (chk && decide (p.size < 1024) || decide (p.size > 4194304)) = true := by
      simp
      exact ⟨h4, h3⟩
    rw [if_neg (by simp [hsig]), if_neg c2, if_neg (by omega), if_neg (by simp [h5]), if_neg (by simp [h2]), if_neg (by simp [hm]), if_neg h1]
    simp only
    rw [if_neg (by omega)]
    exact ⟨_, rfl⟩
  unfold call
  rw [if_neg (by omega)]
  simp only
  have Z : retErr 0 = 0 := by decide
  cases k with
  | fd =>
    obtain ⟨s', h⟩ := A s p p.chk 0 false false (-1) hfd hn hsz hchk hd (by omega)
    simp only [onQueue, h, Z]; exact ⟨_, rfl⟩
  | stream =>
    obtain ⟨s', h⟩ := A s p p.chk 0 false false (-1) hfd hn hsz hchk hd (by omega)
    simp only [onQueue, h, Z]; exact ⟨_, rfl⟩
  | dgram =>
    obtain ⟨s', h⟩ := A s p false 64 false false (-1) hfd hn hsz (by simp) hd (by omega)
    simp only [onQueue, h, Z]; exact ⟨_, rfl⟩
  | listen =>
    have hl' := hl rfl
    obtain ⟨s', h⟩ := A { s with listening := p.fd :: s.listening } { p with size := 64 } false 0 false true (-1) hfd hn (by simp) (by simp) hd (by omega)
    simp only [onQueue, if_neg (show ¬ e.listen < 0 by omega), h, Z]; exact ⟨_, rfl⟩
  | connect t =>
    obtain ⟨s', h⟩ := A s p p.chk 0 true false t hfd hn hsz hchk hd (by omega)
    simp only [onQueue, h, doConnect, Int.lt_irrefl, if_false]
    rcases hcn t rfl with hc | hc
    · rw [if_neg (by omega)]; simp only [Z]; exact ⟨_, rfl⟩
    · rw [if_pos (by omega), if_pos hc]; simp only [Z]; exact ⟨_, rfl⟩

/-- A plain call with everything in order. -/
def okEnv : Env := ⟨true, 0, true, 100, 0, -2003, true, .leave⟩
def okPar : Par := ⟨7, 2048, true, true, true, [11, 12]⟩

example : ∃ s', call init okEnv (some ⟨3, false⟩) okPar (.connect 5000) = .ok 0 s' ∧ s'.timers = [(7, 5100)] ∧ s'.find 7 = some ⟨3, [11, 12], true, true, false, true⟩ :=
  ⟨_, rfl, by decide, by decide⟩

example : ∃ s' s2, hist init [.call okEnv (some ⟨3, false⟩) okPar .stream] = some s' ∧ call s' okEnv (some ⟨4, false⟩) okPar .stream = .ok (-1) s2 ∧ s2.tab = s'.tab :=
  ⟨_, _, rfl, rfl, rfl⟩

/-- **C197** is false of the code: `aosl_mpq_add_fd_on_q` answers with the positive error number when the call to the queue is refused (the header promises a
negative one). -/
theorem C197_positive (s : St) (e : Env) (q : Q) (p : Par) (c : Nat) (hc : 0 < c) (ha : p.args.length ≤ 64) : callOn s e (some q) p .fd c = .ok (c : Int) s := by
  unfold callOn
  rw [if_neg (by omega)]
  simp only
  rw [if_pos (by omega)]
  unfold retErr
  simp only [if_true]
  rw [if_neg (by omega)]

/-- **C197** is false of the code: fd -1, as a failed socket call leaves it, is not refused: with arguments otherwise in order and memory, every call (listen: if the
platform accepts it) calls through a pointer that nobody passed. -/
theorem C197_invalid_fd (s : St) (e : Env) (q : Q) (p : Par) (k : Kind) (hfd : p.fd = -1) (hargs : p.args.length ≤ 64) (hsig : q.sig = false)
    (hsz : p.size ≤ 4194304) (hchk : p.chk = true → 1024 ≤ p.size) (hd : p.data = true) (hm : e.mem = true) (hl : k = .listen → 0 ≤ e.listen) :
    call s e (some q) p k = .ub := by
  have A : ∀ (s : St) (p : Par) (chk : Bool) (extra : Nat) (nr lst : Bool) (timeo : Int), p.fd = -1 → p.size ≤ 4194304 →
      (chk = true → 1024 ≤ p.size) → p.data = true → extra < 4096 → addFd s e q p chk extra nr lst timeo = .ub := by
    intro s p chk extra nr lst timeo h1 h3 h4 h5 h6
    unfold addFd
    have c2 : ¬ (chk && decide (p.size < 1024) || decide (p.size > 4194304)) = true := by
      simp
      exact ⟨h4, h3⟩
    rw [if_neg (by simp [hsig]), if_neg c2, if_neg (by omega), if_neg (by simp [h5]), if_neg (by simp [h1]), if_neg (by simp [hm]), if_pos h1]
  unfold call
  rw [if_neg (by omega)]
  simp only
  cases k with
  | fd => simp only [onQueue, A s p p.chk 0 false false (-1) hfd hsz hchk hd (by omega)]
  | stream => simp only [onQueue, A s p p.chk 0 false false (-1) hfd hsz hchk hd (by omega)]
  | dgram => simp only [onQueue, A s p false 64 false false (-1) hfd hsz (by simp) hd (by omega)]
  | listen =>
    have hl' := hl rfl
    simp only [onQueue, if_neg (show ¬ e.listen < 0 by omega),
      A { s with listening := p.fd :: s.listening } { p with size := 64 } false 0 false true (-1) hfd (by simp) (by simp) hd (by omega)]
  | connect t => simp only [onQueue, A s p p.chk 0 true false t hfd hsz hchk hd (by omega)]

example : call init okEnv (some ⟨3, false⟩) { okPar with fd := -1 } .stream = .ub := rfl

/-- **C197** is false of the fd itself: a registration that fails at the poller has made the fd non-blocking, and one of a listener has made it listen. -/
theorem C197_fd_changed : ∃ s', call init { okEnv with poll := -1 } (some ⟨3, false⟩) okPar .listen = .ok (-1) s' ∧ Untouched init s' ∧ s'.nonblock = [7] ∧
    s'.listening = [7] := ⟨_, rfl, ⟨rfl, rfl, rfl, rfl, rfl, rfl, rfl⟩, rfl, rfl⟩

/-! ## C198 -/

/-- No time-out is pending for `fd`. -/
def NoTimer (s : St) (fd : Int) : Prop := ∀ t, (fd, t) ∉ s.timers

/-- The events of `s'` are those of `s` and then ones that are not time-outs of `fd`. -/
def Quiet (s s' : St) (fd : Int) : Prop := ∃ n, s'.told = n ++ s.told ∧ (fd, -ETIMEDOUT) ∉ n

theorem quiet_same {s s' : St} (fd : Int) (h : s'.told = s.told) : Quiet s s' fd := ⟨[], by simpa using h, by simp⟩
theorem quiet_one {s s' : St} (fd : Int) (e : Int) (h : s'.told = (fd, e) :: s.told) (he : e ≠ -ETIMEDOUT) : Quiet s s' fd :=
  ⟨[(fd, e)], by simpa using h, by simp; exact fun h => he h.symm⟩
theorem Quiet.trans {s s' s'' : St} {fd : Int} (h : Quiet s s' fd) (h' : Quiet s' s'' fd) : Quiet s s'' fd := by
  obtain ⟨n, h1, h2⟩ := h
  obtain ⟨m, h3, h4⟩ := h'
  exact ⟨m ++ n, by rw [h3, h1, List.append_assoc], by simp [h2, h4]⟩

theorem noTimer_filter (l : List (Int × Nat)) (fd : Int) (t : Nat) : (fd, t) ∉ l.filter (fun p => p.1 != fd) := by simp [List.mem_filter]

theorem noTimer_qDel (s : St) (q : Nat) (fd : Int) : NoTimer (qDel s q fd) fd := fun t => noTimer_filter s.timers fd t
theorem noTimer_qClose (s : St) (q : Nat) (fd : Int) : NoTimer (qClose s q fd) fd := fun t => noTimer_filter s.timers fd t

theorem readied_told (s : St) (fd : Int) (r : Reg) : (readied s fd r).told = s.told := by unfold readied; split <;> rfl
theorem readied_closed (s : St) (fd : Int) (r : Reg) : (readied s fd r).closed = s.closed := by unfold readied; split <;> rfl

/-- After the fd became ready there is no time-out pending. -/
theorem ready_quiet {s : St} (hw : WF s) (fd : Int) (cb : Cb) : NoTimer (ready s fd cb) fd ∧ Quiet s (ready s fd cb) fd := by
  cases hf : s.find fd with
  | none =>
    unfold ready
    rw [hf]
    exact ⟨(unknown_of_none hw hf).2.2.2, quiet_same fd rfl⟩
  | some r =>
    have hn : NoTimer (readied s fd r) fd := by
      intro t ht
      obtain ⟨r', h1, h2, h3⟩ := (wf_readied hw fd r).tim _ _ ht
      rw [find_readied hf, if_pos rfl] at h1
      cases h1
      cases h3
    rw [ready_eq hf]
    split
    · cases cb with
      | leave => exact ⟨hn, quiet_one fd READY (by simp only [readied_told]) (by decide)⟩
      | del => exact ⟨noTimer_qDel _ _ _, quiet_one fd READY (by simp only [qDel, readied_told]) (by decide)⟩
      | close => exact ⟨noTimer_qClose _ _ _, quiet_one fd READY (by simp only [qClose, qDel, readied_told]) (by decide)⟩
    · exact ⟨hn, quiet_same fd (readied_told _ _ _)⟩

theorem eventClose_quiet (s : St) (fd : Int) (r : Reg) (err : Int) (cb : Cb) (he : err ≠ -ETIMEDOUT) :
    NoTimer (eventClose s fd r err cb) fd ∧ Quiet s (eventClose s fd r err cb) fd := by
  unfold eventClose
  split
  · cases cb with
    | leave => exact ⟨noTimer_qClose _ _ _, quiet_one fd err rfl he⟩
    | del => exact ⟨noTimer_qDel _ _ _, quiet_one fd err rfl he⟩
    | close => exact ⟨noTimer_qClose _ _ _, quiet_one fd err rfl he⟩
  · exact ⟨noTimer_qClose _ _ _, quiet_same fd rfl⟩

/-- An op other than a time-out: afterwards no time-out is pending. -/
theorem step_quiet {s : St} (hw : WF s) (fd : Int) (o : Op) (ht : ∀ t cb, o ≠ .time t cb) (he : ∀ err cb, o = .error err cb → err ≠ -ETIMEDOUT) :
    NoTimer (step fd s o) fd ∧ Quiet s (step fd s o) fd := by
  cases o with
  | writable cb => exact ready_quiet hw fd cb
  | error e cb =>
    unfold step
    cases hf : s.find fd with
    | none => exact ⟨(unknown_of_none hw hf).2.2.2, quiet_same fd rfl⟩
    | some r => exact eventClose_quiet s fd r e cb (he e cb rfl)
  | time t cb => exact absurd rfl (ht t cb)
  | del =>
    unfold step
    cases hf : s.find fd with
    | none => exact ⟨(unknown_of_none hw hf).2.2.2, quiet_same fd rfl⟩
    | some r => exact ⟨noTimer_qDel _ _ _, quiet_same fd rfl⟩
  | close =>
    unfold step
    cases hf : s.find fd with
    | none => exact ⟨(unknown_of_none hw hf).2.2.2, quiet_same fd rfl⟩
    | some r => exact ⟨noTimer_qClose _ _ _, quiet_same fd rfl⟩

theorem step_time_none {s : St} {fd : Int} (h : NoTimer s fd) (t : Nat) (cb : Cb) : step fd s (.time t cb) = s := by
  unfold step
  simp only
  rw [if_neg]
  simp
  intro a b hab hc
  subst hc
  exact absurd hab (h b)

/-- With no time-out pending none is ever told. -/
theorem run_quiet (fd : Int) (ops : List Op) (he : ∀ err cb, Op.error err cb ∈ ops → err ≠ -ETIMEDOUT) :
    ∀ s, WF s → NoTimer s fd → NoTimer (run fd s ops) fd ∧ Quiet s (run fd s ops) fd := by
  induction ops with
  | nil => intro s _ h; exact ⟨h, quiet_same fd rfl⟩
  | cons o ops ih =>
    intro s hw h
    have he' : ∀ err cb, Op.error err cb ∈ ops → err ≠ -ETIMEDOUT := fun err cb hm => he err cb (List.mem_cons_of_mem _ hm)
    show NoTimer (run fd (step fd s o) ops) fd ∧ Quiet s (run fd (step fd s o) ops) fd
    have hs : NoTimer (step fd s o) fd ∧ Quiet s (step fd s o) fd := by
      cases o with
      | time t cb => rw [step_time_none h]; exact ⟨h, quiet_same fd rfl⟩
      | writable cb => exact step_quiet hw fd _ (by simp) (by simp)
      | error e cb => exact step_quiet hw fd _ (by simp) (by intro err cb' hh; cases hh; exact he e cb (List.mem_cons_self ..))
      | del => exact step_quiet hw fd _ (by simp) (by simp)
      | close => exact step_quiet hw fd _ (by simp) (by simp)
    have := ih he' _ (wf_step hw fd o) hs.1
    exact ⟨this.1, hs.2.trans this.2⟩

theorem run_append (fd : Int) (s : St) (a b : List Op) : run fd s (a ++ b) = run fd (run fd s a) b := by
  unfold run; rw [List.foldl_append]

theorem wf_run (fd : Int) (ops : List Op) : ∀ s, WF s → WF (run fd s ops) := by
  induction ops with
  | nil => intro s h; exact h
  | cons o ops ih => intro s h; exact ih _ (wf_step h fd o)

/-- What a successful connect call leaves: the connection under way with its time-out, or no time-out at all. -/
theorem connect_cases {s s1 : St} (hw : WF s) {e : Env} {q : Q} {p : Par} {timeo : Int} (hfd : p.fd ≠ -1)
    (h : call s e (some q) p (.connect timeo) = .ok 0 s1) :
    (e.connect = -2003 ∧ Added s s1 e q.id p true false timeo) ∨ (0 ≤ e.connect ∧ NoTimer s1 p.fd ∧ Quiet s s1 p.fd) := by
  unfold call at h
  split at h
  · cases h
  · obtain ⟨r, s', ho, hr⟩ := onQueue_spec s hw e q p (.connect timeo) hfd
    simp only [ho] at h
    injection h with hr0 hs
    subst hs
    cases hr with
    | failed r s' h1 h2 u => rw [retErr_neg h1 h2] at hr0; cases hr0
    | plain s' lst hl hk a => exact absurd rfl (hk timeo)
    | pending s' t hk hc a => cases hk; exact .inl ⟨hc, a⟩
    | ready s0 t hk hc a =>
      have := ready_quiet (wf_added hw a) p.fd e.cb
      refine .inr ⟨hc, this.1, ?_⟩
      obtain ⟨n, h1, h2⟩ := this.2
      exact ⟨n, by rw [h1, a.tld], h2⟩

/-- The only time-out pending for the fd is the one of the call. -/
theorem added_timers {s s1 : St} (hw : WF s) {e : Env} {q : Nat} {p : Par} {timeo : Int} (a : Added s s1 e q p true false timeo) (t : Nat) :
    (p.fd, t) ∈ s1.timers ↔ 0 ≤ timeo ∧ e.timerOk = true ∧ t = e.now + timeo.toNat := by
  have hn := (unknown_of_none hw a.new).2.2.2 t
  rw [a.tim]
  by_cases c : (true && decide (timeo ≥ 0) && e.timerOk) = true
  · rw [if_pos c]
    simp at c
    simp [hn, c.2]
    exact fun _ => c.1
  · rw [if_neg c]
    simp at c
    constructor
    · intro h; exact absurd h hn
    · rintro ⟨h1, h2, _⟩
      rw [c h1] at h2; cases h2

theorem due_iff {s s1 : St} (hw : WF s) {e : Env} {q : Nat} {p : Par} {timeo : Int} (a : Added s s1 e q p true false timeo) (t : Nat) :
    s1.timers.any (fun x => x.1 == p.fd && decide (x.2 ≤ t)) = true ↔ 0 ≤ timeo ∧ e.timerOk = true ∧ e.now + timeo.toNat ≤ t := by
  rw [List.any_eq_true]
  constructor
  · rintro ⟨⟨fd, u⟩, hm, hc⟩
    simp at hc
    obtain ⟨rfl, hu⟩ := hc
    obtain ⟨h1, h2, h3⟩ := (added_timers hw a u).1 hm
    exact ⟨h1, h2, by omega⟩
  · rintro ⟨h1, h2, h3⟩
    exact ⟨_, (added_timers hw a _).2 ⟨h1, h2, rfl⟩, by simp [h3]⟩

/-- Before the deadline the passing of time changes nothing. -/
theorem run_early {s s1 : St} (hw : WF s) {e : Env} {q : Nat} {p : Par} {timeo : Int} (a : Added s s1 e q p true false timeo) (ops : List Op)
    (ho : ∀ o ∈ ops, ∃ t cb, o = .time t cb ∧ ¬ (0 ≤ timeo ∧ e.timerOk = true ∧ e.now + timeo.toNat ≤ t)) : run p.fd s1 ops = s1 := by
  induction ops with
  | nil => rfl
  | cons o ops ih =>
    obtain ⟨t, cb, rfl, ht⟩ := ho o (List.mem_cons_self ..)
    show run p.fd (step p.fd s1 (.time t cb)) ops = s1
    have : step p.fd s1 (.time t cb) = s1 := by
      unfold step
      simp only
      rw [if_neg]
      rw [due_iff hw a]
      exact ht
    rw [this]
    exact ih (fun o hm => ho o (List.mem_cons_of_mem _ hm))

theorem find_timers (s : St) (c : List (Int × Nat)) (fd : Int) : ({ s with timers := c } : St).find fd = s.find fd := rfl

theorem timeout_due {s s1 : St} (hw : WF s) {e : Env} {q : Nat} {p : Par} {timeo : Int} (a : Added s s1 e q p true false timeo) (t : Nat) (cb : Cb)
    (ht : 0 ≤ timeo ∧ e.timerOk = true ∧ e.now + timeo.toNat ≤ t) :
    Unknown (step p.fd s1 (.time t cb)) p.fd ∧
    (step p.fd s1 (.time t cb)).told = (if p.ev then [(p.fd, -ETIMEDOUT)] else []) ++ s.told ∧
    (step p.fd s1 (.time t cb)).closed = (if p.ev = true ∧ cb = .del then [] else [p.fd]) ++ s.closed := by
  have hw1 := wf_added hw a
  have hf := find_added a p.fd
  rw [if_pos rfl] at hf
  have hstep : step p.fd s1 (.time t cb) = timeout s1 p.fd cb := by
    unfold step
    simp only
    rw [if_pos ((due_iff hw a t).2 ht)]
  have hto : (timeout s1 p.fd cb).find p.fd = none := by
    unfold timeout
    rw [hf]
    simp only [if_true]
    rw [find_timers, find_upd, if_pos rfl, find_eventClose, if_pos rfl]
    rfl
  rw [hstep]
  refine ⟨unknown_of_none (wf_timeout hw1 p.fd cb) hto, ?_, ?_⟩
  · unfold timeout
    rw [hf]
    simp only [if_true, upd]
    unfold eventClose
    by_cases c : p.ev = true
    · simp only [c, if_true]
      cases cb <;> simp [qClose, qDel, a.tld]
    · simp only [c]
      simp [qClose, qDel, a.tld]
  · unfold timeout
    rw [hf]
    simp only [if_true, upd]
    unfold eventClose
    by_cases c : p.ev = true
    · simp only [c, if_true]
      cases cb <;> simp [qClose, qDel, a.cls]
    · simp only [c]
      simp [qClose, qDel, a.cls]

/-- **C198**, safety, after any history and whatever then happens to the fd (errors the platform reports are not themselves time-outs): a successful
`aosl_mpq_connect` is told a time-out at most once; then that is all it is told, the connection was under way with a time-out of 0 or more, nothing but time had
passed, and the time had come. -/
theorem C198_only_late (as : List Act) (s : St) (hs : hist init as = some s) (e : Env) (q : Q) (p : Par) (timeo : Int) (hfd : p.fd ≠ -1) (s1 : St)
    (h : call s e (some q) p (.connect timeo) = .ok 0 s1) (ops : List Op) (he : ∀ err cb, Op.error err cb ∈ ops → err ≠ -ETIMEDOUT) :
    ∃ n, (run p.fd s1 ops).told = n ++ s.told ∧ ((p.fd, -ETIMEDOUT) ∈ n → n = [(p.fd, -ETIMEDOUT)] ∧ e.connect = -2003 ∧ 0 ≤ timeo ∧
      ∃ a t cb b, ops = a ++ .time t cb :: b ∧ e.now + timeo.toNat ≤ t ∧ (∀ o ∈ a, ∃ t' cb', o = .time t' cb' ∧ t' < e.now + timeo.toNat)) := by
  have hw := wf_hist as _ _ wf_init hs
  rcases connect_cases hw hfd h with ⟨hc, a⟩ | ⟨_, hn, hq⟩
  · have hw1 := wf_added hw a
    -- split ops at the first one that is not an early time
    have hsplit : (∀ o ∈ ops, ∃ t cb, o = .time t cb ∧ ¬ (0 ≤ timeo ∧ e.timerOk = true ∧ e.now + timeo.toNat ≤ t)) ∨
        ∃ x o y, ops = x ++ o :: y ∧ (∀ o ∈ x, ∃ t cb, o = .time t cb ∧ ¬ (0 ≤ timeo ∧ e.timerOk = true ∧ e.now + timeo.toNat ≤ t)) ∧
          ∀ t cb, o = .time t cb → 0 ≤ timeo ∧ e.timerOk = true ∧ e.now + timeo.toNat ≤ t := by
      clear h he
      induction ops with
      | nil => left; simp
      | cons o ops ih =>
        by_cases co : ∃ t cb, o = .time t cb ∧ ¬ (0 ≤ timeo ∧ e.timerOk = true ∧ e.now + timeo.toNat ≤ t)
        · rcases ih with h | ⟨x, o', y, h1, h2, h3⟩
          · left
            intro o' hm
            rcases List.mem_cons.1 hm with rfl | hm
            · exact co
            · exact h o' hm
          · right
            refine ⟨o :: x, o', y, by rw [h1]; rfl, ?_, h3⟩
            intro o' hm
            rcases List.mem_cons.1 hm with rfl | hm
            · exact co
            · exact h2 o' hm
        · right
          refine ⟨[], o, ops, rfl, by simp, ?_⟩
          intro t cb ho
          apply Classical.byContradiction
          intro hc
          exact co ⟨t, cb, ho, hc⟩
    rcases hsplit with hall | ⟨x, o, y, hops, hx, ho⟩
    · rw [run_early hw a ops hall]
      exact ⟨[], by simp [a.tld], by simp⟩
    · have hey : ∀ err cb, Op.error err cb ∈ y → err ≠ -ETIMEDOUT := fun err cb hm => he err cb (by rw [hops]; simp [hm])
      have hrun : run p.fd s1 ops = run p.fd (step p.fd s1 o) y := by
        rw [hops, run_append, run_early hw a x hx]; rfl
      have hws := wf_step hw1 p.fd o
      by_cases cot : ∃ t cb, o = .time t cb
      · obtain ⟨t, cb, rfl⟩ := cot
        have hd := ho t cb rfl
        obtain ⟨hu, ht, _⟩ := timeout_due hw a t cb hd
        -- nothing more is told of the fd
        have hend : ∀ (y : List Op) (z : St), Unknown z p.fd → (run p.fd z y).told = z.told := by
          intro y
          induction y with
          | nil => intro z _; rfl
          | cons o y ih =>
            intro z hz
            show (run p.fd (step p.fd z o) y).told = z.told
            have : Unknown (step p.fd z o) p.fd ∧ (step p.fd z o).told = z.told := by
              cases o with
              | writable cb => unfold step ready; simp only [hz.1]; exact ⟨hz, trivial⟩
              | error e cb => unfold step; simp only [hz.1]; exact ⟨hz, trivial⟩
              | time t cb => rw [step_time_none hz.2.2.2]; exact ⟨hz, rfl⟩
              | del => unfold step; simp only [hz.1]; exact ⟨hz, trivial⟩
              | close => unfold step; simp only [hz.1]; exact ⟨hz, trivial⟩
            rw [ih _ this.1, this.2]
        refine ⟨if p.ev then [(p.fd, -ETIMEDOUT)] else [], by rw [hrun, hend y _ hu, ht], ?_⟩
        intro hm
        have hev : p.ev = true := by
          cases hpe : p.ev with
          | true => rfl
          | false => rw [hpe] at hm; simp at hm
        rw [if_pos hev]
        refine ⟨rfl, hc, hd.1, x, t, cb, y, hops, hd.2.2, ?_⟩
        intro o hox
        obtain ⟨t', cb', rfl, hn⟩ := hx o hox
        exact ⟨t', cb', rfl, by
          apply Classical.byContradiction
          intro hlt
          exact hn ⟨hd.1, hd.2.1, by omega⟩⟩
      · have hq := step_quiet hw1 p.fd o (fun t cb hh => cot ⟨t, cb, hh⟩) (fun err cb hh => he err cb (by rw [hops, hh]; simp))
        obtain ⟨n, h1, h2⟩ := hq.2.trans (run_quiet p.fd y hey _ hws hq.1).2
        exact ⟨n, by rw [hrun, h1, a.tld], fun hm => absurd hm h2⟩
  · have hw1 : WF s1 := wf_call hw h
    obtain ⟨n, h1, h2⟩ := hq.trans (run_quiet p.fd ops he s1 hw1 hn).2
    exact ⟨n, h1, fun hm => absurd hm h2⟩

/-- **C198**, the time-out does come: if the timer could be made and nothing but time has passed, then when the time has come the event function (if any) is told
so and the fd is unregistered and closed (unless the event function unregistered it: then it is the caller's again). -/
theorem C198_comes_partial (as : List Act) (s : St) (hs : hist init as = some s) (e : Env) (q : Q) (p : Par) (timeo : Int) (hfd : p.fd ≠ -1) (s1 : St)
    (h : call s e (some q) p (.connect timeo) = .ok 0 s1) (hc : e.connect = -2003) (ht0 : 0 ≤ timeo) (htm : e.timerOk = true) (early : List (Nat × Cb))
    (hearly : ∀ x ∈ early, x.1 < e.now + timeo.toNat) (t : Nat) (cb : Cb) (ht : e.now + timeo.toNat ≤ t) :
    ∃ s2, s2 = run p.fd s1 (early.map (fun x => .time x.1 x.2) ++ [.time t cb]) ∧ Unknown s2 p.fd ∧
      s2.told = (if p.ev then [(p.fd, -ETIMEDOUT)] else []) ++ s.told ∧ s2.closed = (if p.ev = true ∧ cb = .del then [] else [p.fd]) ++ s.closed := by
  have hw := wf_hist as _ _ wf_init hs
  rcases connect_cases hw hfd h with ⟨_, a⟩ | ⟨hc', _⟩
  · refine ⟨_, rfl, ?_⟩
    rw [run_append, run_early hw a]
    · exact timeout_due hw a t cb ⟨ht0, htm, ht⟩
    · intro o ho
      obtain ⟨x, hx, rfl⟩ := List.mem_map.1 ho
      exact ⟨x.1, x.2, rfl, fun hh => by have := hearly x hx; omega⟩
  · omega

/-- **C198** is false of the code: when the timer cannot be made the call answers 0 all the same, and however much time passes the connection stays under way and
nothing is told. -/
theorem C198_never (as : List Act) (s : St) (hs : hist init as = some s) (e : Env) (q : Q) (p : Par) (timeo : Int) (hfd : p.fd ≠ -1) (s1 : St)
    (h : call s e (some q) p (.connect timeo) = .ok 0 s1) (hc : e.connect = -2003) (htm : e.timerOk = false) (times : List (Nat × Cb)) :
    run p.fd s1 (times.map (fun x => .time x.1 x.2)) = s1 ∧ ∃ r, s1.find p.fd = some r ∧ r.notReady = true := by
  have hw := wf_hist as _ _ wf_init hs
  rcases connect_cases hw hfd h with ⟨_, a⟩ | ⟨hc', _⟩
  · refine ⟨?_, _, by rw [find_added a, if_pos rfl], rfl⟩
    apply run_early hw a
    intro o ho
    obtain ⟨x, hx, rfl⟩ := List.mem_map.1 ho
    exact ⟨x.1, x.2, rfl, fun hh => by rw [htm] at hh; exact absurd hh.2.1 (by decide)⟩
  · omega

example : ∃ s1, call init { okEnv with timerOk := false } (some ⟨3, false⟩) okPar (.connect 5000) = .ok 0 s1 := ⟨_, rfl⟩

example : ∃ s1, call init okEnv (some ⟨3, false⟩) okPar (.connect 5000) = .ok 0 s1 ∧
    (run 7 s1 [.time 200 .leave, .time 5099 .leave]).told = [] ∧ (run 7 s1 [.time 200 .leave, .time 5100 .leave]).told = [(7, -1110)] ∧
    (run 7 s1 [.writable .leave, .time 5100 .leave]).told = [(7, 1)] := ⟨_, rfl, by decide, by decide, by decide⟩

/-- **C197**: more than 64 arguments are refused and nothing changes, on this queue and on another. -/
theorem C197_too_many (s : St) (e : Env) (q : Option Q) (p : Par) (k : Kind) (c : Nat) (h : 64 < p.args.length) :
    call s e q p k = .ok (-1) s ∧ callOn s e q p k c = .ok (-1) s := by
  have z : retErr (-E2BIG) = -1 := by decide
  constructor
  · unfold call; rw [if_pos h, z]
  · unfold callOn; rw [if_pos h, z]

example : 64 < ({ okPar with args := List.replicate 65 0 } : Par).args.length := by decide

/-- **C197** is false of the code for connecting on another queue: without arguments the count of them wraps around, and the callbacks get all but the last of the
arguments given. -/
theorem C197_connect_on_q (s : St) (e : Env) (q : Q) (p : Par) (t : Int) (hl : p.args.length ≤ 64) :
    (p.args = [] → callOn s e (some q) p (.connect t) 0 = .ub) ∧
    (∀ a x, p.args = a ++ [x] → callOn s e (some q) p (.connect t) 0 = call s e (some q) { p with args := a } (.connect t)) := by
  constructor
  · intro h
    unfold callOn
    rw [if_neg (by omega)]
    simp [carried, h]
  · intro a x h
    have ha : a.length ≤ 64 := by have := congrArg List.length h; simp at this; omega
    have hc : carried (.connect t) p.args = some a := by
      unfold carried
      simp [h]
    unfold callOn call
    rw [if_neg (by omega), if_neg (show ¬ 64 < a.length by omega)]
    simp only [hc]
    rfl

example : ∃ s', callOn init okEnv (some ⟨3, false⟩) okPar (.connect 5000) 0 = .ok 0 s' ∧ s'.find 7 = some ⟨3, [11], true, true, false, true⟩ :=
  ⟨_, rfl, by decide⟩

/-- The reasons of a refusal on the queue's own thread, as numbers: the platform's listen refuses; the fd is registered; no memory. -/
theorem C197_reasons (s : St) (e : Env) (q : Q) (p : Par) :
    (∀ r, r < 0 → e.listen = r → onQueue s e q p .listen = .ok (if r = -2002 then -1004 else if r = -2001 then -1011 else if r = -2003 then -1115 else -2000) s) ∧
    (q.sig = false → 1024 ≤ p.size → p.size ≤ 4194304 → p.data = true → p.fd ≠ -1 ∧ (s.find p.fd).isSome → onQueue s e q p .fd = .ok (-1017) s) ∧
    (q.sig = false → 1024 ≤ p.size → p.size ≤ 4194304 → p.data = true → s.find p.fd = none → e.mem = false → onQueue s e q p .fd = .ok (-1012) s) ∧
    (q.sig = true → onQueue s e q p .fd = .ok (-1001) s) ∧
    (q.sig = false → p.size > 4194304 → onQueue s e q p .fd = .ok (-1022) s) := by
  have c2 : 1024 ≤ p.size → p.size ≤ 4194304 → ¬ (p.chk && decide (p.size < 1024) || decide (p.size > 4194304)) = true := by
    intro h h'
    simp
    exact ⟨fun _ => h, h'⟩
  refine ⟨?_, ?_, ?_, ?_, ?_⟩
  · intro r hr he
    subst he
    simp only [onQueue, if_pos hr, halErr]
  · intro h1 h2 h3 h4 h5
    simp only [onQueue, addFd]
    rw [if_neg (by simp [h1]), if_neg (c2 h2 h3), if_neg (by omega), if_neg (by simp [h4]), if_pos (by simpa using h5)]
    rfl
  · intro h1 h2 h3 h4 h5 h6
    simp only [onQueue, addFd]
    rw [if_neg (by simp [h1]), if_neg (c2 h2 h3), if_neg (by omega), if_neg (by simp [h4]), if_neg (by simp [h5]), if_pos (by simp [h6])]
    rfl
  · intro h1
    simp only [onQueue, addFd]
    rw [if_pos (by simp [h1])]
    rfl
  · intro h1 h2
    simp only [onQueue, addFd]
    rw [if_neg (by simp [h1]), if_pos (by simp [h2])]
    rfl


end Verif.FdReg
