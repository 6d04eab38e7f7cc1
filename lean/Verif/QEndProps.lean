import Verif.QEnd

/-! Properties of `QEnd`: C185, C186. -/

namespace Verif.QEnd

/-- The timers whose destructors have run, in this order. -/
def dtored (s : St) : List Nat := s.ran.filterMap (fun r => match r.cb with | .dtor id => some id | _ => none)

/-! ## Making timers -/

theorem mk_some (n : Nat) : ∀ (s : St) (q : Nat), s.cur = some q →
    makeTimers n s = { s with timers := s.timers ++ (List.range' s.next n).map (fun i => (q, i)), next := s.next + n } := by
  induction n with
  | zero => intro s q _; cases s; simp [makeTimers]
  | succ n ih =>
    intro s q h
    have e : makeTimer s = { s with timers := s.timers ++ [(q, s.next)], next := s.next + 1 } := by simp [makeTimer, current, h]
    rw [makeTimers, ih _ q (by rw [e]; exact h), e]
    simp only [List.range'_succ, List.map_cons, List.append_assoc, List.singleton_append, St.mk.injEq, true_and, and_true]
    exact Nat.add_right_comm s.next 1 n

theorem mk_none (n : Nat) (s : St) (h : s.cur = none) :
    makeTimers (n + 1) s = { s with cur := some (s.made + 1), made := s.made + 1, timers := s.timers ++ (List.range' s.next (n + 1)).map (fun i => (s.made + 1, i)), next := s.next + (n + 1) } := by
  have e : makeTimer s = { s with cur := some (s.made + 1), made := s.made + 1, timers := s.timers ++ [(s.made + 1, s.next)], next := s.next + 1 } := by simp [makeTimer, current, h]
  rw [makeTimers, mk_some n _ (s.made + 1) (by rw [e]), e]
  simp only [List.range'_succ, List.map_cons, List.append_assoc, List.singleton_append, St.mk.injEq, true_and, and_true]
  exact Nat.add_right_comm s.next 1 n

/-! ## The invariant -/

structure Inv (s : St) : Prop where
  /-- before the queue there is nothing; with it, it is the current one; afterwards at most one other -/
  place : match s.phase with
    | .boot => s.cur = none ∧ s.timers = [] ∧ s.made = 0
    | .initing | .running | .draining => s.cur = some 0 ∧ s.made = 0
    | .dying | .gone => (s.cur = none ∧ s.made = 0) ∨ (s.cur = some 1 ∧ s.made = 1)
  /-- timers are of the queue or of the one made afterwards -/
  queues : ∀ p ∈ s.timers, p.1 = 0 ∨ (p.1 = 1 ∧ s.made = 1)
  gone : s.phase = .gone → own s = []
  ids : (s.timers.map (·.2) ++ dtored s).Perm (List.range s.next)
  ran : ∀ r ∈ s.ran, match r.phase with
    | .boot => r.cb = .fini ∧ r.this = none
    | .initing => r.cb = .init ∧ r.this = some 0
    | .running => r.this = some 0
    | .draining => r.this = some 0
    | .dying => (∃ id, r.cb = .dtor id) ∧ (r.this = none ∨ r.this = some 1)
    | .gone => False

theorem init_inv : Inv St.init := ⟨⟨rfl, rfl, rfl⟩, (by intro p hp; cases hp), (by intro h; cases h), by simp [St.init, dtored], (by intro r hr; cases hr)⟩

theorem range_more (a n : Nat) : List.range (a + n) = List.range a ++ List.range' a n := by
  rw [List.range_eq_range', List.range_eq_range', ← List.range'_append]
  simp

theorem ids_more (L D : List Nat) (a n : Nat) (h : (L ++ D).Perm (List.range a)) : (L ++ List.range' a n ++ D).Perm (List.range (a + n)) := by
  rw [range_more]
  have : (L ++ List.range' a n ++ D).Perm (L ++ D ++ List.range' a n) := by
    rw [List.append_assoc, List.append_assoc]
    exact List.Perm.append_left _ List.perm_append_comm
  exact this.trans (h.append_right _)

def stamp (s : St) (cb : Cb) : St := { s with ran := s.ran ++ [⟨cb, s.phase, s.cur⟩] }

/-- The ids in existence and destroyed, after a callback. -/
theorem call_ids (s : St) (cb : Cb) (n : Nat) (h : (s.timers.map (·.2) ++ dtored (stamp s cb)).Perm (List.range s.next)) :
    ((call s cb n).timers.map (·.2) ++ dtored (call s cb n)).Perm (List.range (call s cb n).next) := by
  have key : ∀ q, ((s.timers ++ (List.range' s.next n).map (fun i => (q, i))).map (fun x : Nat × Nat => x.2) ++ dtored (stamp s cb)).Perm (List.range (s.next + n)) := by
    intro q
    have e : (s.timers ++ (List.range' s.next n).map (fun i => (q, i))).map (fun x : Nat × Nat => x.2) = s.timers.map (·.2) ++ List.range' s.next n := by
      simp [List.map_map, Function.comp_def]
    rw [e]
    exact ids_more _ _ _ _ h
  have e0 : call s cb n = makeTimers n (stamp s cb) := rfl
  cases hc : s.cur with
  | some q =>
    rw [e0, mk_some n (stamp s cb) q hc]
    exact key q
  | none =>
    cases n with
    | zero => exact h
    | succ n =>
      rw [e0, mk_none n (stamp s cb) hc]
      exact key (s.made + 1)

theorem call_phase (s : St) (cb : Cb) (n : Nat) : (call s cb n).phase = s.phase := by
  have e0 : call s cb n = makeTimers n (stamp s cb) := rfl
  cases hc : s.cur with
  | some q => rw [e0, mk_some n (stamp s cb) q hc]; rfl
  | none => cases n with
    | zero => rfl
    | succ n => rw [e0, mk_none n (stamp s cb) hc]; rfl

theorem set_phase (s : St) (cb : Cb) (n : Nat) : ({ call s cb n with phase := s.phase } : St) = call s cb n := by
  rw [← call_phase s cb n]

theorem call_ran (s : St) (cb : Cb) (n : Nat) : (call s cb n).ran = s.ran ++ [⟨cb, s.phase, s.cur⟩] := by
  have e0 : call s cb n = makeTimers n (stamp s cb) := rfl
  cases hc : s.cur with
  | some q => rw [e0, mk_some n (stamp s cb) q hc]; simp [stamp, hc]
  | none => cases n with
    | zero => simp [e0, makeTimers, stamp, hc]
    | succ n => rw [e0, mk_none n (stamp s cb) hc]; simp [stamp, hc]

theorem call_timers (s : St) (cb : Cb) (n : Nat) : ∃ q L, (call s cb n).timers = s.timers ++ L ∧ (∀ p ∈ L, p.1 = q) ∧ L.length = n ∧
    (∀ q', s.cur = some q' → q = q' ∧ (call s cb n).cur = s.cur ∧ (call s cb n).made = s.made) ∧
    (s.cur = none → q = s.made + 1 ∧ (n = 0 → (call s cb n).cur = none ∧ (call s cb n).made = s.made) ∧ (0 < n → (call s cb n).cur = some (s.made + 1) ∧ (call s cb n).made = s.made + 1)) := by
  have e0 : call s cb n = makeTimers n (stamp s cb) := rfl
  cases hc : s.cur with
  | some q =>
    refine ⟨q, (List.range' s.next n).map (fun i => (q, i)), ?_, (fun p hp => by obtain ⟨_, _, rfl⟩ := List.mem_map.1 hp; rfl), by simp, ?_, by simp⟩
    · rw [e0, mk_some n (stamp s cb) q hc]; rfl
    · intro q' h; cases h
      rw [e0, mk_some n (stamp s cb) q hc]
      exact ⟨rfl, hc, rfl⟩
  | none =>
    cases n with
    | zero => exact ⟨s.made + 1, [], by simp [e0, makeTimers, stamp], by simp, rfl, by simp, fun _ => ⟨rfl, fun _ => ⟨hc, rfl⟩, fun h => absurd h (by omega)⟩⟩
    | succ n =>
      refine ⟨s.made + 1, (List.range' s.next (n + 1)).map (fun i => (s.made + 1, i)), ?_, (fun p hp => by obtain ⟨_, _, rfl⟩ := List.mem_map.1 hp; rfl), by simp, by simp, fun _ => ⟨rfl, fun h => absurd h (by omega), fun _ => ?_⟩⟩
      · rw [e0, mk_none n (stamp s cb) hc]; rfl
      · rw [e0, mk_none n (stamp s cb) hc]; exact ⟨rfl, rfl⟩

theorem dtored_stamp_other (s : St) (cb : Cb) (h : ∀ id, cb ≠ .dtor id) : dtored (stamp s cb) = dtored s := by
  simp only [dtored, stamp, List.filterMap_append, List.filterMap_cons, List.filterMap_nil]
  cases cb <;> simp_all

theorem dtored_stamp_dtor (s : St) (id : Nat) : dtored (stamp s (.dtor id)) = dtored s ++ [id] := by
  simp [dtored, stamp]

theorem own_mem (s : St) (id : Nat) : id ∈ own s ↔ (0, id) ∈ s.timers := by
  simp only [own, List.mem_map, List.mem_filter, decide_eq_true_eq]
  constructor
  · rintro ⟨p, ⟨h1, h2⟩, rfl⟩
    rw [← h2]; exact h1
  · intro h; exact ⟨(0, id), ⟨h, rfl⟩, rfl⟩

/-- Taking the timer `id` and running its destructor. -/
theorem ids_dtor (s : St) (id : Nat) (h : (s.timers.map (·.2) ++ dtored s).Perm (List.range s.next)) (hm : (0, id) ∈ s.timers) :
    ((s.timers.erase (0, id)).map (·.2) ++ dtored (stamp { s with timers := s.timers.erase (0, id) } (.dtor id))).Perm (List.range s.next) := by
  rw [dtored_stamp_dtor]
  refine List.Perm.trans ?_ h
  have h1 : (s.timers.map (·.2)).Perm (id :: (s.timers.erase (0, id)).map (·.2)) := (List.perm_cons_erase hm).map (·.2)
  have h2 : dtored { s with timers := s.timers.erase (0, id) } = dtored s := rfl
  rw [h2]
  refine List.Perm.trans ?_ (h1.append_right _).symm
  rw [← List.append_assoc]
  exact List.perm_append_comm

/-- A callback before the thread's queue is given up. -/
theorem call_live (s : St) (cb : Cb) (n : Nat) (ph : Phase) (hp : s.phase = .initing ∨ s.phase = .running ∨ s.phase = .draining) (hph : ph = .initing ∨ ph = .running ∨ ph = .draining)
    (hc : s.cur = some 0 ∧ s.made = 0) (hq : ∀ p ∈ s.timers, p.1 = 0 ∨ (p.1 = 1 ∧ s.made = 1))
    (hids : (s.timers.map (·.2) ++ dtored (stamp s cb)).Perm (List.range s.next)) (hcb : s.phase = .initing → cb = .init) (hr : ∀ r ∈ s.ran, match r.phase with
    | .boot => r.cb = .fini ∧ r.this = none
    | .initing => r.cb = .init ∧ r.this = some 0
    | .running => r.this = some 0
    | .draining => r.this = some 0
    | .dying => (∃ id, r.cb = .dtor id) ∧ (r.this = none ∨ r.this = some 1)
    | .gone => False) : Inv { call s cb n with phase := ph } := by
  obtain ⟨q, L, h1, h2, _, h4, _⟩ := call_timers s cb n
  obtain ⟨hq0, hcur, hmade⟩ := h4 0 hc.1
  refine ⟨?_, ?_, ?_, call_ids s cb n hids, ?_⟩
  · rcases hph with rfl | rfl | rfl <;> exact ⟨by rw [hcur, hc.1], by rw [hmade, hc.2]⟩
  · intro p hp
    rw [show ({ call s cb n with phase := ph } : St).timers = (call s cb n).timers from rfl, h1] at hp
    rcases List.mem_append.1 hp with hp | hp
    · rcases hq p hp with h | h
      · exact Or.inl h
      · rw [hc.2] at h; exact absurd h.2 (by omega)
    · exact Or.inl (by rw [h2 p hp, hq0])
  · intro h; rcases hph with rfl | rfl | rfl <;> cases h
  · intro r hr'
    rw [show ({ call s cb n with phase := ph } : St).ran = (call s cb n).ran from rfl, call_ran] at hr'
    rcases List.mem_append.1 hr' with hr' | hr'
    · exact hr r hr'
    · simp only [List.mem_singleton] at hr'
      subst hr'
      rcases hp with e | e | e
      · simp only [e]; exact ⟨hcb e, hc.1⟩
      · simp only [e]; exact hc.1
      · simp only [e]; exact hc.1

theorem step_inv (s s' : St) (op : Op) (hi : Inv s) (h : step s op = some s') : Inv s' := by
  have hsub : ∀ id, ∀ p ∈ s.timers.erase (0, id), p.1 = 0 ∨ (p.1 = 1 ∧ s.made = 1) := fun id p hp => hi.queues p (List.mem_of_mem_erase hp)
  cases op with
  | boot ok hasFini n =>
    simp only [step] at h
    by_cases hp : s.phase = .boot
    · rw [if_pos hp] at h
      have pl := hi.place
      rw [hp] at pl
      obtain ⟨p1, p2, p3⟩ := pl
      cases ok with
      | true =>
        simp only [if_true] at h
        cases h
        exact ⟨⟨rfl, p3⟩, hi.queues, (fun h => by cases h), hi.ids, hi.ran⟩
      | false =>
        simp only [Bool.false_eq_true, if_false] at h
        cases h
        cases hasFini with
        | false =>
          exact ⟨Or.inl ⟨p1, p3⟩, hi.queues, fun _ => by simp [own, p2], hi.ids, hi.ran⟩
        | true =>
          simp only [if_true]
          obtain ⟨q, L, h1, h2, h3, _, h5⟩ := call_timers s .fini n
          obtain ⟨g1, g2, g3⟩ := h5 p1
          have hmade : n = 0 ∨ 0 < n := by omega
          refine ⟨?_, ?_, ?_, ?_, ?_⟩
          · rcases hmade with hn | hn
            · exact Or.inl ⟨(g2 hn).1, by rw [show ({ call s .fini n with phase := .gone } : St).made = (call s .fini n).made from rfl, (g2 hn).2, p3]⟩
            · have := g3 hn; rw [p3] at this; exact Or.inr this
          · intro p hp'
            rw [show ({ call s .fini n with phase := .gone } : St).timers = (call s .fini n).timers from rfl, h1, p2] at hp'
            simp only [List.nil_append] at hp'
            have hn : 0 < n := by rw [← h3]; exact List.length_pos_of_mem hp'
            refine Or.inr ⟨by rw [h2 p hp', g1, p3], ?_⟩
            have := (g3 hn).2; rw [p3] at this; exact this
          · intro _
            show own { call s .fini n with phase := .gone } = []
            simp only [own, h1, p2, List.nil_append, List.map_eq_nil_iff, List.filter_eq_nil_iff]
            intro p hp' h0
            have := h2 p hp'
            simp only [decide_eq_true_eq] at h0
            omega
          · exact call_ids s .fini n (by rw [dtored_stamp_other _ _ (by simp)]; exact hi.ids)
          · intro r hr
            rw [show ({ call s .fini n with phase := .gone } : St).ran = (call s .fini n).ran from rfl, call_ran] at hr
            rcases List.mem_append.1 hr with hr | hr
            · exact hi.ran r hr
            · simp only [List.mem_singleton] at hr
              subst hr; show (match s.phase with | .boot => Cb.fini = .fini ∧ s.cur = none | .initing => Cb.fini = .init ∧ s.cur = some 0 | .running => s.cur = some 0 | .draining => s.cur = some 0 | .dying => (∃ id, Cb.fini = .dtor id) ∧ (s.cur = none ∨ s.cur = some 1) | .gone => False); rw [hp]; exact ⟨rfl, p1⟩
    · rw [if_neg hp] at h; cases h
  | init n ok =>
    simp only [step] at h
    by_cases hp : s.phase = .initing
    · rw [if_pos hp] at h; cases h
      have pl := hi.place
      rw [hp] at pl
      exact call_live s .init n _ (Or.inl hp) (by cases ok <;> simp) pl hi.queues (by rw [dtored_stamp_other _ _ (by simp)]; exact hi.ids) (fun _ => rfl) hi.ran
    · rw [if_neg hp] at h; cases h
  | func n =>
    simp only [step] at h
    by_cases hp : s.phase = .running ∨ s.phase = .draining
    · rw [if_pos hp] at h; cases h
      have pl : s.cur = some 0 ∧ s.made = 0 := by have := hi.place; rcases hp with e | e <;> rw [e] at this <;> exact this
      have := call_live s .func n s.phase (Or.inr hp) (Or.inr hp) pl hi.queues (by rw [dtored_stamp_other _ _ (by simp)]; exact hi.ids) (fun e => by rcases hp with h | h <;> rw [h] at e <;> cases e) hi.ran
      rw [← call_phase s .func n] at this; exact this
    · rw [if_neg hp] at h; cases h
  | timer id n =>
    simp only [step] at h
    by_cases hp : s.phase = .running ∧ id ∈ own s
    · rw [if_pos hp] at h; cases h
      have pl : s.cur = some 0 ∧ s.made = 0 := by have := hi.place; rw [hp.1] at this; exact this
      have := call_live s (.timer id) n s.phase (Or.inr (Or.inl hp.1)) (Or.inr (Or.inl hp.1)) pl hi.queues (by rw [dtored_stamp_other _ _ (by simp)]; exact hi.ids) (fun e => by rw [hp.1] at e; cases e) hi.ran
      rw [← call_phase s (.timer id) n] at this; exact this
    · rw [if_neg hp] at h; cases h
  | fd n =>
    simp only [step] at h
    by_cases hp : s.phase = .running
    · rw [if_pos hp] at h; cases h
      have pl : s.cur = some 0 ∧ s.made = 0 := by have := hi.place; rw [hp] at this; exact this
      have := call_live s .fd n s.phase (Or.inr (Or.inl hp)) (Or.inr (Or.inl hp)) pl hi.queues (by rw [dtored_stamp_other _ _ (by simp)]; exact hi.ids) (fun e => by rw [hp] at e; cases e) hi.ran
      rw [← call_phase s .fd n] at this; exact this
    · rw [if_neg hp] at h; cases h
  | kill id n =>
    simp only [step] at h
    by_cases hp : (s.phase = .running ∨ s.phase = .draining) ∧ id ∈ own s
    · rw [if_pos hp] at h; cases h
      have pl : s.cur = some 0 ∧ s.made = 0 := by have := hi.place; rcases hp.1 with e | e <;> rw [e] at this <;> exact this
      have := call_live { s with timers := s.timers.erase (0, id) } (.dtor id) n s.phase (Or.inr hp.1) (Or.inr hp.1) pl (hsub id) (ids_dtor s id hi.ids ((own_mem s id).1 hp.2))
        (fun e => by rcases hp.1 with h | h <;> rw [show ({ s with timers := s.timers.erase (0, id) } : St).phase = s.phase from rfl, h] at e <;> cases e) hi.ran
      rwa [set_phase { s with timers := s.timers.erase (0, id) } (.dtor id) n] at this
    · rw [if_neg hp] at h; cases h
  | terminate =>
    simp only [step] at h
    by_cases hp : s.phase = .running
    · rw [if_pos hp] at h; cases h
      have pl := hi.place
      rw [hp] at pl
      exact ⟨pl, hi.queues, (fun h => by cases h), hi.ids, hi.ran⟩
    · rw [if_neg hp] at h; cases h
  | finish hasFini n =>
    simp only [step] at h
    by_cases hp : s.phase = .draining
    · rw [if_pos hp] at h; cases h
      have pl := hi.place
      rw [hp] at pl
      cases hasFini with
      | false => exact ⟨Or.inl ⟨rfl, pl.2⟩, hi.queues, (fun h => by cases h), hi.ids, hi.ran⟩
      | true =>
        have := call_live s .fini n .draining (Or.inr (Or.inr hp)) (Or.inr (Or.inr rfl)) pl hi.queues (by rw [dtored_stamp_other _ _ (by simp)]; exact hi.ids) (fun e => by rw [hp] at e; cases e) hi.ran
        exact ⟨Or.inl ⟨rfl, this.place.2⟩, this.queues, (fun h => by cases h), this.ids, this.ran⟩
    · rw [if_neg hp] at h; cases h
  | dtor n =>
    simp only [step] at h
    by_cases hp : s.phase = .dying
    · rw [if_pos hp] at h
      split at h
      · rename_i id rest hown
        cases h
        have hm : (0, id) ∈ s.timers := (own_mem s id).1 (by rw [hown]; simp)
        have pl := hi.place
        rw [hp] at pl
        obtain ⟨q, L, h1, h2, h3, h4, h5⟩ := call_timers { s with timers := s.timers.erase (0, id) } (.dtor id) n
        have hph : (call { s with timers := s.timers.erase (0, id) } (.dtor id) n).phase = .dying := (call_phase _ _ _).trans hp
        have hn : n = 0 ∨ 0 < n := by omega
        have cm : ((call { s with timers := s.timers.erase (0, id) } (.dtor id) n).cur = none ∧ (call { s with timers := s.timers.erase (0, id) } (.dtor id) n).made = 0 ∧ L = [] ∧ s.made = 0) ∨
            ((call { s with timers := s.timers.erase (0, id) } (.dtor id) n).cur = some 1 ∧ (call { s with timers := s.timers.erase (0, id) } (.dtor id) n).made = 1 ∧ q = 1) := by
          rcases pl with ⟨c1, c2⟩ | ⟨c1, c2⟩
          · obtain ⟨g1, g2, g3⟩ := h5 c1
            rcases hn with hn | hn
            · exact Or.inl ⟨(g2 hn).1, (g2 hn).2.trans c2, List.length_eq_zero_iff.1 (h3.trans hn), c2⟩
            · exact Or.inr ⟨(g3 hn).1.trans (congrArg (fun k => some (k + 1)) c2), (g3 hn).2.trans (congrArg (· + 1) c2), g1.trans (congrArg (· + 1) c2)⟩
          · obtain ⟨g1, g2, g3⟩ := h4 1 c1
            exact Or.inr ⟨g2.trans c1, g3.trans c2, g1⟩
        refine ⟨?_, ?_, fun h => (by rw [hph] at h; cases h), call_ids _ _ _ (ids_dtor s id hi.ids hm), ?_⟩
        · rw [hph]
          rcases cm with ⟨c1, c2, _⟩ | ⟨c1, c2, _⟩
          · exact Or.inl ⟨c1, c2⟩
          · exact Or.inr ⟨c1, c2⟩
        · intro p hp'
          rw [h1] at hp'
          rcases List.mem_append.1 hp' with hp' | hp'
          · rcases hsub id p hp' with h0 | ⟨h0, h0'⟩
            · exact Or.inl h0
            · rcases cm with ⟨_, _, _, c4⟩ | ⟨_, c2, _⟩
              · rw [c4] at h0'; exact absurd h0' (by omega)
              · exact Or.inr ⟨h0, c2⟩
          · rcases cm with ⟨_, _, c3, _⟩ | ⟨_, c2, c3⟩
            · rw [c3] at hp'; cases hp'
            · exact Or.inr ⟨by rw [h2 p hp', c3], c2⟩
        · intro r hr
          rw [call_ran] at hr
          rcases List.mem_append.1 hr with hr | hr
          · exact hi.ran r hr
          · simp only [List.mem_singleton] at hr
            subst hr
            simp only [hp]
            refine ⟨⟨id, rfl⟩, ?_⟩
            rcases pl with ⟨c1, _⟩ | ⟨c1, _⟩
            · exact Or.inl c1
            · exact Or.inr c1
      · cases h
    · rw [if_neg hp] at h; cases h
  | exit =>
    simp only [step] at h
    by_cases hp : s.phase = .dying ∧ own s = []
    · rw [if_pos hp] at h; cases h
      have pl := hi.place
      rw [hp.1] at pl
      exact ⟨pl, hi.queues, fun _ => hp.2, hi.ids, hi.ran⟩
    · rw [if_neg hp] at h; cases h

theorem run_inv (ops : List Op) : ∀ s s', Inv s → run s ops = some s' → Inv s' := by
  induction ops with
  | nil => intro s s' hi h; cases h; exact hi
  | cons op ops ih =>
    intro s s' hi h
    simp only [run] at h
    split at h
    · cases h
    · rename_i s1 h1
      exact ih s1 s' (step_inv s s1 op hi h1) h

/-! ## C185: what a callback sees as its queue -/

/-- C185 (where it holds). In every life of a queue's thread every callback sees the thread's own queue — `init`, queued functions, timers, descriptors, destructors of timers killed while the queue
runs, functions executed while it drains, `fini` — except `fini` after a failed creation and the destructors run at the end. -/
theorem C185_this_partial (ops : List Op) (s : St) (h : run St.init ops = some s) (r : Ran) (hr : r ∈ s.ran) :
    r.this = some 0 ∨ (r.phase = .boot ∧ r.cb = .fini) ∨ (r.phase = .dying ∧ ∃ id, r.cb = .dtor id) := by
  have := (run_inv ops _ s init_inv h).ran r hr
  cases hp : r.phase <;> rw [hp] at this <;> simp only at this
  · exact Or.inr (Or.inl ⟨rfl, this.1⟩)
  · exact Or.inl this.2
  · exact Or.inl this
  · exact Or.inl this
  · exact Or.inr (Or.inr ⟨rfl, this.1⟩)

/-- C185 is false of the code: a destructor run at the end of its queue never sees that queue, and neither does `fini` after a failed creation. -/
theorem C185_not_at_end (ops : List Op) (s : St) (h : run St.init ops = some s) (r : Ran) (hr : r ∈ s.ran) (hp : r.phase = .dying ∨ r.phase = .boot) : r.this ≠ some 0 := by
  have := (run_inv ops _ s init_inv h).ran r hr
  rcases hp with hp | hp <;> rw [hp] at this
  · rcases this.2 with h | h <;> rw [h] <;> simp
  · rw [this.2]; simp

/-- It happens: a queue ends with a timer; its destructor runs with no queue. -/
example : (run St.init [.boot true true 0, .init 1 true, .timer 0 0, .terminate, .finish true 0, .dtor 0, .exit]).map (·.ran) =
    some [⟨.init, .initing, some 0⟩, ⟨.timer 0, .running, some 0⟩, ⟨.fini, .draining, some 0⟩, ⟨.dtor 0, .dying, none⟩] := by decide

/-! ## C186: what callbacks make is cleaned up -/

theorem count_one (L : List Nat) (n id : Nat) (h : L.Perm (List.range n)) (hid : id < n) : L.count id = 1 := by
  rw [h.count_eq]
  have h1 := (List.nodup_iff_count.1 (List.nodup_range (n := n))) id
  have h2 := List.count_pos_iff.2 (List.mem_range.2 hid)
  omega

/-- C186 (accounting). When the thread has ended, every timer made by any of its callbacks has had its destructor run exactly once, unless it was made on the queue that `fini` of a failed creation or
a destructor at the end brought into being: then never. -/
theorem C186_accounting (ops : List Op) (s : St) (h : run St.init ops = some s) (hg : s.phase = .gone) (id : Nat) (hid : id < s.next) :
    (dtored s).count id = if (1, id) ∈ s.timers then 0 else 1 := by
  have hi := run_inv ops _ s init_inv h
  have hc := count_one _ _ id hi.ids hid
  rw [List.count_append] at hc
  have hown := hi.gone hg
  have key : id ∈ s.timers.map (·.2) ↔ (1, id) ∈ s.timers := by
    constructor
    · intro hm
      obtain ⟨p, hp, rfl⟩ := List.mem_map.1 hm
      rcases hi.queues p hp with h0 | ⟨h0, _⟩
      · have : p.2 ∈ own s := (own_mem s p.2).2 (by rw [← h0]; exact hp)
        rw [hown] at this; cases this
      · rw [← h0]; exact hp
    · intro hm; exact List.mem_map_of_mem (f := (·.2)) hm
  by_cases hm : (1, id) ∈ s.timers
  · rw [if_pos hm]
    have := List.count_pos_iff.2 (key.2 hm)
    omega
  · rw [if_neg hm]
    have := List.count_eq_zero.2 (fun h => hm (key.1 h))
    omega

theorem quiet_run (ops : List Op) : ∀ s s', Inv s → s.made = 0 → run s ops = some s' → (∀ op ∈ ops, (∀ n, op = .dtor n → n = 0) ∧ (∀ n, op = .boot false true n → n = 0)) → s'.made = 0 := by
  induction ops with
  | nil => intro s s' _ h0 h _; cases h; exact h0
  | cons op ops ih =>
    intro s s' hi h0 h hq
    simp only [run] at h
    split at h
    · cases h
    · rename_i s1 h1
      have hi1 := step_inv s s1 op hi h1
      refine ih s1 s' hi1 ?_ h (fun o ho => hq o (List.mem_cons_of_mem _ ho))
      obtain ⟨q1, q2⟩ := hq op List.mem_cons_self
      have pl := hi1.place
      cases op with
      | boot ok hf n =>
        simp only [step] at h1
        by_cases hp : s.phase = .boot
        · rw [if_pos hp] at h1
          cases ok with
          | true => simp only [if_true] at h1; cases h1; exact h0
          | false =>
            simp only [Bool.false_eq_true, if_false] at h1
            cases h1
            cases hf with
            | false => exact h0
            | true => rw [q2 n rfl]; exact h0
        · rw [if_neg hp] at h1; cases h1
      | dtor n =>
        have := q1 n rfl
        subst this
        simp only [step] at h1
        by_cases hp : s.phase = .dying
        · rw [if_pos hp] at h1
          split at h1
          · cases h1; exact h0
          · cases h1
        · rw [if_neg hp] at h1; cases h1
      | init n ok =>
        simp only [step] at h1
        by_cases hp : s.phase = .initing
        · rw [if_pos hp] at h1; cases h1; cases ok <;> exact pl.2
        · rw [if_neg hp] at h1; cases h1
      | func n =>
        simp only [step] at h1
        by_cases hp : s.phase = .running ∨ s.phase = .draining
        · rw [if_pos hp] at h1; cases h1
          rw [call_phase] at pl
          rcases hp with e | e <;> rw [e] at pl <;> exact pl.2
        · rw [if_neg hp] at h1; cases h1
      | timer id n =>
        simp only [step] at h1
        by_cases hp : s.phase = .running ∧ id ∈ own s
        · rw [if_pos hp] at h1; cases h1
          rw [call_phase, hp.1] at pl; exact pl.2
        · rw [if_neg hp] at h1; cases h1
      | fd n =>
        simp only [step] at h1
        by_cases hp : s.phase = .running
        · rw [if_pos hp] at h1; cases h1
          rw [call_phase, hp] at pl; exact pl.2
        · rw [if_neg hp] at h1; cases h1
      | kill id n =>
        simp only [step] at h1
        by_cases hp : (s.phase = .running ∨ s.phase = .draining) ∧ id ∈ own s
        · rw [if_pos hp] at h1; cases h1
          have e := call_phase { s with timers := s.timers.erase (0, id) } (.dtor id) n
          rcases hp.1 with e' | e' <;> rw [e.trans e'] at pl <;> exact pl.2
        · rw [if_neg hp] at h1; cases h1
      | terminate =>
        simp only [step] at h1
        by_cases hp : s.phase = .running
        · rw [if_pos hp] at h1; cases h1; exact h0
        · rw [if_neg hp] at h1; cases h1
      | finish hf n =>
        simp only [step] at h1
        by_cases hp : s.phase = .draining
        · rw [if_pos hp] at h1; cases h1
          cases hf with
          | false => exact h0
          | true =>
            have pl0 := hi.place
            rw [hp] at pl0
            obtain ⟨_, _, _, _, _, h4, _⟩ := call_timers s .fini n
            exact (h4 0 pl0.1).2.2.trans h0
        · rw [if_neg hp] at h1; cases h1
      | exit =>
        simp only [step] at h1
        by_cases hp : s.phase = .dying ∧ own s = []
        · rw [if_pos hp] at h1; cases h1; exact h0
        · rw [if_neg hp] at h1; cases h1

/-- C186 (where it holds). If the destructors run at the end, and `fini` after a failed creation, make nothing, then when the thread has ended no queue but its own was brought into being, and every timer
its callbacks made — `fini` included — has had its destructor run exactly once. -/
theorem C186_clean_partial (ops : List Op) (s : St) (h : run St.init ops = some s) (hg : s.phase = .gone)
    (hq : ∀ op ∈ ops, (∀ n, op = .dtor n → n = 0) ∧ (∀ n, op = .boot false true n → n = 0)) :
    s.made = 0 ∧ s.timers = [] ∧ ∀ id, id < s.next → (dtored s).count id = 1 := by
  have hi := run_inv ops _ s init_inv h
  have hm := quiet_run ops _ s init_inv rfl h hq
  have ht : s.timers = [] := by
    refine List.eq_nil_iff_forall_not_mem.2 (fun p hp => ?_)
    rcases hi.queues p hp with h0 | ⟨_, h0⟩
    · have : p.2 ∈ own s := (own_mem s p.2).2 (by rw [← h0]; exact hp)
      rw [hi.gone hg] at this; cases this
    · omega
  refine ⟨hm, ht, fun id hid => ?_⟩
  rw [C186_accounting ops s h hg id hid, ht]; simp

example : ∃ s, run St.init [.boot true true 0, .init 1 true, .func 2, .kill 1 1, .terminate, .func 1, .finish true 1, .dtor 0, .dtor 0, .dtor 0, .dtor 0, .dtor 0, .exit] = some s ∧ s.phase = .gone ∧ s.next = 6 ∧
    dtored s = [1, 0, 2, 3, 4, 5] := ⟨_, rfl, by decide, by decide, by decide⟩

theorem kept_step (s s' : St) (op : Op) (h : step s op = some s') (p : Nat × Nat) (hp : p ∈ s.timers) (h0 : p.1 ≠ 0) : p ∈ s'.timers := by
  have hcall : ∀ (s : St) cb n, p ∈ s.timers → p ∈ (call s cb n).timers := by
    intro s cb n hm
    obtain ⟨_, L, h1, _⟩ := call_timers s cb n
    rw [h1]; exact List.mem_append_left _ hm
  have her : ∀ id, p ∈ s.timers.erase (0, id) := fun id => (List.mem_erase_of_ne (fun e => h0 (by rw [e]))).2 hp
  cases op with
  | boot ok hf n =>
    simp only [step] at h
    split at h
    · cases ok
      · simp only [Bool.false_eq_true, if_false] at h
        cases h
        cases hf
        · exact hp
        · exact hcall s .fini n hp
      · simp only [if_true] at h; cases h; exact hp
    · cases h
  | init n ok => simp only [step] at h; split at h <;> cases h; exact hcall s .init n hp
  | func n => simp only [step] at h; split at h <;> cases h; exact hcall s .func n hp
  | timer id n => simp only [step] at h; split at h <;> cases h; exact hcall s _ n hp
  | fd n => simp only [step] at h; split at h <;> cases h; exact hcall s _ n hp
  | kill id n => simp only [step] at h; split at h <;> cases h; exact hcall _ _ n (her id)
  | terminate => simp only [step] at h; split at h <;> cases h; exact hp
  | finish hf n =>
    simp only [step] at h
    split at h
    · cases h
      cases hf
      · exact hp
      · exact hcall s .fini n hp
    · cases h
  | dtor n =>
    simp only [step] at h
    split at h
    · split at h
      · cases h; exact hcall _ _ n (her _)
      · cases h
    · cases h
  | exit => simp only [step] at h; split at h <;> cases h; exact hp

theorem kept_run (ops : List Op) : ∀ s s', run s ops = some s' → ∀ p ∈ s.timers, p.1 ≠ 0 → p ∈ s'.timers := by
  induction ops with
  | nil => intro s s' h p hp _; cases h; exact hp
  | cons op ops ih =>
    intro s s' h p hp h0
    simp only [run] at h
    split at h
    · cases h
    · rename_i s1 h1
      exact ih s1 s' h p (kept_step s s1 op h1 p hp h0) h0

/-- C186 is false of the code: a timer that a destructor makes at the end of its queue is put on a new queue of a thread that is about to end; however the thread goes on, the queue and the timer stay, the timer's
function is never called and its destructor never runs. -/
theorem C186_orphan (ops1 ops2 : List Op) (s1 s2 s : St) (n : Nat) (h1 : run St.init ops1 = some s1) (hn : 0 < n) (h2 : step s1 (.dtor n) = some s2) (h3 : run s2 ops2 = some s) :
    s.made = 1 ∧ ∃ id, s1.next = id ∧ (1, id) ∈ s.timers ∧ id ∉ dtored s ∧ ∀ r ∈ s.ran, r.cb ≠ .timer id := by
  have hi1 := run_inv ops1 _ s1 init_inv h1
  have hi2 := step_inv s1 s2 _ hi1 h2
  have hi := run_inv ops2 _ s hi2 h3
  have hd : s1.phase = .dying := by
    simp only [step] at h2
    by_cases hp : s1.phase = .dying
    · exact hp
    · rw [if_neg hp] at h2; cases h2
  have hmem : (1, s1.next) ∈ s2.timers := by
    simp only [step] at h2
    rw [if_pos hd] at h2
    split at h2
    · rename_i id rest hown
      cases h2
      obtain ⟨m, rfl⟩ : ∃ m, n = m + 1 := ⟨n - 1, by omega⟩
      have e0 : call { s1 with timers := s1.timers.erase (0, id) } (.dtor id) (m + 1) = makeTimers (m + 1) (stamp { s1 with timers := s1.timers.erase (0, id) } (.dtor id)) := rfl
      have pl := hi1.place
      rw [hd] at pl
      rcases pl with ⟨c1, c2⟩ | ⟨c1, c2⟩
      · rw [e0, mk_none m (stamp { s1 with timers := s1.timers.erase (0, id) } (.dtor id)) c1]
        refine List.mem_append_right _ ?_
        show (1, s1.next) ∈ (List.range' s1.next (m + 1)).map (fun i => (s1.made + 1, i))
        rw [c2, List.range'_succ]; simp
      · rw [e0, mk_some (m + 1) (stamp { s1 with timers := s1.timers.erase (0, id) } (.dtor id)) 1 c1]
        refine List.mem_append_right _ ?_
        show (1, s1.next) ∈ (List.range' s1.next (m + 1)).map (fun i => (1, i))
        rw [List.range'_succ]; simp
    · cases h2
  have hm := kept_run ops2 s2 s h3 _ hmem (by simp)
  have hnd : (s.timers.map (·.2) ++ dtored s).Nodup := hi.ids.nodup_iff.2 List.nodup_range
  refine ⟨?_, s1.next, rfl, hm, ?_, ?_⟩
  · rcases hi.queues _ hm with h | h
    · simp at h
    · exact h.2
  · intro hd'
    exact (List.nodup_append.1 hnd).2.2 s1.next (List.mem_map_of_mem (f := (·.2)) hm) s1.next hd' rfl
  · -- a timer's function is called in the loop only, and this timer did not exist then
    have hran : ∀ (ops : List Op) (a b : St), Inv a → (a.phase = .dying ∨ a.phase = .gone) → run a ops = some b → ∀ r ∈ b.ran, r ∈ a.ran ∨ ∃ id, r.cb = .dtor id := by
      intro ops
      induction ops with
      | nil => intro a b _ _ h r hr; cases h; exact Or.inl hr
      | cons op ops ih =>
        intro a b hia hp h r hr
        simp only [run] at h
        split at h
        · cases h
        · rename_i c hc
          have hic := step_inv a c op hia hc
          have hcp : (c.phase = .dying ∨ c.phase = .gone) ∧ (∀ r ∈ c.ran, r ∈ a.ran ∨ ∃ id, r.cb = .dtor id) := by
            cases op with
            | dtor n =>
              simp only [step] at hc
              split at hc
              · split at hc
                · cases hc
                  refine ⟨Or.inl ((call_phase _ _ _).trans (by assumption)), ?_⟩
                  intro r hr
                  rw [call_ran] at hr
                  rcases List.mem_append.1 hr with hr | hr
                  · exact Or.inl hr
                  · simp only [List.mem_singleton] at hr; subst hr; exact Or.inr ⟨_, rfl⟩
                · cases hc
              · cases hc
            | exit =>
              simp only [step] at hc
              split at hc
              · cases hc; exact ⟨Or.inr rfl, fun r hr => Or.inl hr⟩
              · cases hc
            | boot ok hf n => simp only [step] at hc; rw [if_neg (by rcases hp with e | e <;> rw [e] <;> simp)] at hc; cases hc
            | init n ok => simp only [step] at hc; rw [if_neg (by rcases hp with e | e <;> rw [e] <;> simp)] at hc; cases hc
            | func n => simp only [step] at hc; rw [if_neg (by rcases hp with e | e <;> rw [e] <;> simp)] at hc; cases hc
            | timer id n => simp only [step] at hc; rw [if_neg (by rcases hp with e | e <;> rw [e] <;> simp)] at hc; cases hc
            | fd n => simp only [step] at hc; rw [if_neg (by rcases hp with e | e <;> rw [e] <;> simp)] at hc; cases hc
            | kill id n => simp only [step] at hc; rw [if_neg (by rcases hp with e | e <;> rw [e] <;> simp)] at hc; cases hc
            | terminate => simp only [step] at hc; rw [if_neg (by rcases hp with e | e <;> rw [e] <;> simp)] at hc; cases hc
            | finish hf n => simp only [step] at hc; rw [if_neg (by rcases hp with e | e <;> rw [e] <;> simp)] at hc; cases hc
          rcases ih c b hic hcp.1 h r hr with hr' | hr'
          · exact hcp.2 r hr'
          · exact Or.inr hr'
    have htid : ∀ (ops : List Op) (a b : St), Inv a → (∀ r ∈ a.ran, ∀ id, r.cb = .timer id → id < a.next) → run a ops = some b → ∀ r ∈ b.ran, ∀ id, r.cb = .timer id → id < b.next := by
      intro ops
      induction ops with
      | nil => intro a b _ ha h; cases h; exact ha
      | cons op ops ih =>
        intro a b hia ha h
        simp only [run] at h
        split at h
        · cases h
        · rename_i c hc
          refine ih c b (step_inv a c op hia hc) ?_ h
          have hnext : ∀ (x : St) cb n, x.next ≤ (call x cb n).next := by
            intro x cb n
            have e0 : call x cb n = makeTimers n (stamp x cb) := rfl
            cases hcc : x.cur with
            | some q => rw [e0, mk_some n (stamp x cb) q hcc]; show x.next ≤ x.next + n; omega
            | none => cases n with
              | zero => exact Nat.le_refl _
              | succ n => rw [e0, mk_none n (stamp x cb) hcc]; show x.next ≤ x.next + (n + 1); omega
          have hgen : ∀ (x : St) cb n, x.ran = a.ran → x.next = a.next → (∀ id, cb = .timer id → id < a.next) → ∀ r ∈ (call x cb n).ran, ∀ id, r.cb = .timer id → id < (call x cb n).next := by
            intro x cb n e1 e2 hcb r hr id hid
            have := hnext x cb n
            rw [call_ran, e1] at hr
            rcases List.mem_append.1 hr with hr | hr
            · have := ha r hr id hid; omega
            · simp only [List.mem_singleton] at hr
              subst hr
              have := hcb id hid; omega
          cases op with
          | boot ok hf n =>
            simp only [step] at hc
            split at hc
            · cases ok
              · simp only [Bool.false_eq_true, if_false] at hc
                cases hc
                cases hf
                · exact ha
                · exact hgen a .fini n rfl rfl (by simp)
              · simp only [if_true] at hc; cases hc; exact ha
            · cases hc
          | init n ok => simp only [step] at hc; split at hc <;> cases hc; exact hgen a .init n rfl rfl (by simp)
          | func n => simp only [step] at hc; split at hc <;> cases hc; exact hgen a .func n rfl rfl (by simp)
          | timer id n =>
            simp only [step] at hc
            split at hc
            · rename_i hh
              cases hc
              refine hgen a (.timer id) n rfl rfl ?_
              intro id' e
              cases e
              have h1 := (own_mem a id).1 hh.2
              have : id ∈ a.timers.map (·.2) ++ dtored a := List.mem_append_left _ (List.mem_map_of_mem (f := (·.2)) h1)
              exact List.mem_range.1 (hia.ids.mem_iff.1 this)
            · cases hc
          | fd n => simp only [step] at hc; split at hc <;> cases hc; exact hgen a .fd n rfl rfl (by simp)
          | kill id n => simp only [step] at hc; split at hc <;> cases hc; exact hgen _ _ n rfl rfl (by simp)
          | terminate => simp only [step] at hc; split at hc <;> cases hc; exact ha
          | finish hf n =>
            simp only [step] at hc
            split at hc
            · cases hc
              cases hf
              · exact ha
              · exact hgen a .fini n rfl rfl (by simp)
            · cases hc
          | dtor n =>
            simp only [step] at hc
            split at hc
            · split at hc
              · cases hc; exact hgen _ _ n rfl rfl (by simp)
              · cases hc
            · cases hc
          | exit => simp only [step] at hc; split at hc <;> cases hc; exact ha
    intro r hr hcb
    have hs1 := htid ops1 _ s1 init_inv (by intro r hr; cases hr) h1
    have h2' : run s1 (.dtor n :: ops2) = some s := by simp only [run, h2]; exact h3
    rcases hran _ s1 s hi1 (Or.inl hd) h2' r hr with h | ⟨id, h⟩
    · have := hs1 r h _ hcb; omega
    · rw [hcb] at h; cases h

/-- It happens: the destructor of a queue's last timer makes a timer. -/
example : ∃ s, run St.init [.boot true false 0, .init 1 true, .terminate, .finish false 0, .dtor 1, .exit] = some s ∧ s.phase = .gone ∧ s.made = 1 ∧ s.timers = [(1, 1)] ∧ dtored s = [0] :=
  ⟨_, rfl, by decide, by decide, by decide, by decide⟩

/-- The same for `fini` after a failed creation. -/
theorem C186_orphan_fini (n : Nat) : ∃ s, run St.init [.boot false true (n + 1)] = some s ∧ s.phase = .gone ∧ s.made = 1 ∧ s.timers.length = n + 1 ∧ dtored s = [] := by
  have e0 : call St.init .fini (n + 1) = makeTimers (n + 1) (stamp St.init .fini) := rfl
  refine ⟨{ call St.init .fini (n + 1) with phase := .gone }, rfl, rfl, ?_, ?_, ?_⟩
  · rw [e0, mk_none n _ rfl]; rfl
  · rw [e0, mk_none n _ rfl]; simp [stamp, St.init]
  · rw [e0, mk_none n _ rfl]; simp [stamp, St.init, dtored]

/-! ## C188: what init and fini decide -/

theorem run_cons (op : Op) (ops : List Op) (s s' : St) (h : run s (op :: ops) = some s') : ∃ s1, step s op = some s1 ∧ run s1 ops = some s' := by
  simp only [run] at h
  split at h
  · cases h
  · rename_i s1 h1; exact ⟨s1, h1, h⟩

/-- The phase after a step and what ran in it, without the timers. -/
theorem step_ran (s s' : St) (op : Op) (h : step s op = some s') : s'.ran = s.ran ∨ ∃ cb, s'.ran = s.ran ++ [⟨cb, s.phase, s.cur⟩] ∧
    (cb = .fini → (∃ n, op = .boot false true n ∧ s.phase = .boot ∧ s'.phase = .gone) ∨ (∃ n, op = .finish true n ∧ s.phase = .draining ∧ s'.phase = .dying)) ∧
    ((cb = .fd ∨ ∃ id, cb = .timer id) → s.phase = .running) := by
  cases op with
  | boot ok hf n =>
    simp only [step] at h
    split at h
    · rename_i hp
      split at h
      · cases h; exact Or.inl rfl
      · rename_i hok; simp only [Bool.not_eq_true] at hok; subst hok
        cases h
        cases hf with
        | false => exact Or.inl rfl
        | true => exact Or.inr ⟨.fini, call_ran _ _ _, (fun _ => Or.inl ⟨n, rfl, hp, rfl⟩), by simp⟩
    · cases h
  | init n ok =>
    simp only [step] at h
    split at h
    · cases h; exact Or.inr ⟨.init, call_ran _ _ _, by simp, by simp⟩
    · cases h
  | func n =>
    simp only [step] at h
    split at h
    · cases h; exact Or.inr ⟨.func, call_ran _ _ _, by simp, by simp⟩
    · cases h
  | timer id n =>
    simp only [step] at h
    split at h
    · rename_i hp; cases h; exact Or.inr ⟨.timer id, call_ran _ _ _, by simp, fun _ => hp.1⟩
    · cases h
  | fd n =>
    simp only [step] at h
    split at h
    · rename_i hp; cases h; exact Or.inr ⟨.fd, call_ran _ _ _, by simp, fun _ => hp⟩
    · cases h
  | kill id n =>
    simp only [step] at h
    split at h
    · cases h; exact Or.inr ⟨.dtor id, call_ran _ _ _, by simp, by simp⟩
    · cases h
  | terminate =>
    simp only [step] at h
    split at h
    · cases h; exact Or.inl rfl
    · cases h
  | finish hf n =>
    simp only [step] at h
    split at h
    · rename_i hp
      cases h
      cases hf with
      | false => exact Or.inl rfl
      | true => exact Or.inr ⟨.fini, call_ran _ _ _, (fun _ => Or.inr ⟨n, rfl, hp, rfl⟩), by simp⟩
    · cases h
  | dtor n =>
    simp only [step] at h
    split at h
    · split at h
      · rename_i id _ _; cases h; exact Or.inr ⟨.dtor id, call_ran _ _ _, by simp, by simp⟩
      · cases h
    · cases h
  | exit =>
    simp only [step] at h
    split at h
    · cases h; exact Or.inl rfl
    · cases h

theorem step_phase (s s' : St) (op : Op) (h : step s op = some s') :
    s'.phase = match op with
      | .boot true _ _ => .initing
      | .boot false _ _ => .gone
      | .init _ ok => if ok then .running else .draining
      | .terminate => .draining
      | .finish _ _ => .dying
      | .exit => .gone
      | _ => s.phase := by
  cases op with
  | boot ok hf n => simp only [step] at h; split at h <;> (try (cases h; done)); cases ok <;> (simp at h; cases h; rfl)
  | init n ok => simp only [step] at h; split at h <;> (try (cases h; done)); cases h; rfl
  | func n => simp only [step] at h; split at h <;> (try (cases h; done)); cases h; exact call_phase _ _ _
  | timer id n => simp only [step] at h; split at h <;> (try (cases h; done)); cases h; exact call_phase _ _ _
  | fd n => simp only [step] at h; split at h <;> (try (cases h; done)); cases h; exact call_phase _ _ _
  | kill id n => simp only [step] at h; split at h <;> (try (cases h; done)); cases h; exact call_phase _ _ _
  | terminate => simp only [step] at h; split at h <;> (try (cases h; done)); cases h; rfl
  | finish hf n => simp only [step] at h; split at h <;> (try (cases h; done)); cases h; rfl
  | dtor n => simp only [step] at h; split at h <;> (try (cases h; done)); split at h <;> (try (cases h; done)); cases h; exact call_phase _ _ _
  | exit => simp only [step] at h; split at h <;> (try (cases h; done)); cases h; rfl

theorem over_run (ops : List Op) : ∀ s s', run s ops = some s' → (s.phase = .draining ∨ s.phase = .dying ∨ s.phase = .gone) →
    (∀ r ∈ s.ran, r.cb ≠ .fd ∧ ∀ id, r.cb ≠ .timer id) → ∀ r ∈ s'.ran, r.cb ≠ .fd ∧ ∀ id, r.cb ≠ .timer id := by
  induction ops with
  | nil => intro s s' h _ hr; cases h; exact hr
  | cons op ops ih =>
    intro s s' h hp hr
    obtain ⟨s1, h1, h2⟩ := run_cons op ops s s' h
    have hph := step_phase s s1 op h1
    have hrr := step_ran s s1 op h1
    refine ih s1 s' h2 ?_ ?_
    · cases op <;> (try (dsimp only at hph; rw [hph]; exact hp)) <;> simp only [step] at h1
      · split at h1
        · rename_i hb; rw [hb] at hp; simp at hp
        · cases h1
      · split at h1
        · rename_i hb; rw [hb] at hp; simp at hp
        · cases h1
      · exact Or.inl hph
      · exact Or.inr (Or.inl hph)
      · exact Or.inr (Or.inr hph)
    · rcases hrr with e | ⟨cb, e, _, h4⟩
      · rw [e]; exact hr
      · rw [e]
        intro r hr'
        rw [List.mem_append, List.mem_singleton] at hr'
        rcases hr' with hr' | hr'
        · exact hr r hr'
        · subst hr'
          refine ⟨fun hc => ?_, fun id hc => ?_⟩
          · rw [h4 (Or.inl hc)] at hp; simp at hp
          · rw [h4 (Or.inr ⟨id, hc⟩)] at hp; simp at hp

/-- C188: a queue whose `init` reported a failure runs no timer and no descriptor, whatever `init` has set up and whatever happens later. -/
theorem C188_failed_init (hf : Bool) (n0 n : Nat) (ops : List Op) (s : St) (h : run St.init (.boot true hf n0 :: .init n false :: ops) = some s) :
    ∀ r ∈ s.ran, r.cb ≠ .fd ∧ ∀ id, r.cb ≠ .timer id := by
  obtain ⟨s1, h1, h⟩ := run_cons _ _ _ _ h
  obtain ⟨s2, h2, h⟩ := run_cons _ _ _ _ h
  have e1 : s1.ran = [] := by cases h1; rfl
  have hph := step_phase s1 s2 _ h2
  simp only [Bool.false_eq_true, if_false] at hph
  refine over_run ops s2 s h (Or.inl hph) ?_
  simp only [step] at h2
  split at h2
  · cases h2
    rw [call_ran, e1]; simp
  · cases h2

/-- C188: a queue whose `init` succeeded goes on until its end is asked for: `fini` has not run before. -/
theorem C188_runs_on (hf : Bool) (n0 n : Nat) (ops : List Op) (s : St) (h0 : run St.init (.boot true hf n0 :: .init n true :: ops) = some s) (ht : .terminate ∉ ops) :
    s.phase = .running ∧ ∀ r ∈ s.ran, r.cb ≠ .fini := by
  obtain ⟨s1, h1, ha⟩ := run_cons _ _ _ _ h0
  obtain ⟨s2, h2, h⟩ := run_cons _ _ _ _ ha
  have e1 : s1.ran = [] := by cases h1; rfl
  have hph := step_phase s1 s2 _ h2
  simp only [if_true] at hph
  have hr : ∀ r ∈ s2.ran, r.cb ≠ .fini := by
    simp only [step] at h2
    split at h2
    · cases h2
      rw [call_ran, e1]; simp
    · cases h2
  clear h1 h2 e1 h0 ha
  induction ops generalizing s2 with
  | nil => cases h; exact ⟨hph, hr⟩
  | cons op ops ih =>
    obtain ⟨s3, h3, h4⟩ := run_cons _ _ _ _ h
    have hp3 := step_phase s2 s3 op h3
    have hr3 := step_ran s2 s3 op h3
    refine ih (fun hm => ht (List.mem_cons_of_mem _ hm)) s3 h4 ?_ ?_
    · cases op <;> (try (dsimp only at hp3; rw [hp3]; exact hph)) <;> simp only [step, hph] at h3 <;> simp at h3
      exact absurd List.mem_cons_self ht
    · rcases hr3 with e | ⟨cb, e, h5, _⟩
      · rw [e]; exact hr
      · rw [e]
        intro r hr'
        rw [List.mem_append, List.mem_singleton] at hr'
        rcases hr' with hr' | hr'
        · exact hr r hr'
        · subst hr'
          intro hc
          rcases h5 hc with ⟨_, _, h6, _⟩ | ⟨_, _, h6, _⟩ <;> rw [hph] at h6 <;> cases h6

/-- How often `fini` has run. -/
def finis (s : St) : Nat := (s.ran.filter (fun r => r.cb = .fini)).length

/-- C188: `fini`, where there is one, runs exactly once by the time the thread is gone, and never twice, however the queue came up and went down. -/
theorem C188_fini_once (ops : List Op) (s : St) (h : run St.init ops = some s) (hf : ∀ op ∈ ops, (∀ b ok n, op = .boot ok b n → b = true) ∧ (∀ b n, op = .finish b n → b = true)) :
    finis s = if s.phase = .dying ∨ s.phase = .gone then 1 else 0 := by
  have key : ∀ (ops : List Op) (s s' : St), run s ops = some s' → (∀ op ∈ ops, (∀ b ok n, op = .boot ok b n → b = true) ∧ (∀ b n, op = .finish b n → b = true)) →
      (finis s = if s.phase = .dying ∨ s.phase = .gone then 1 else 0) → (finis s' = if s'.phase = .dying ∨ s'.phase = .gone then 1 else 0) := by
    intro ops
    induction ops with
    | nil => intro s s' h _ hi; cases h; exact hi
    | cons op ops ih =>
      intro s s' h hf hi
      obtain ⟨s1, h1, h2⟩ := run_cons _ _ _ _ h
      refine ih s1 s' h2 (fun o ho => hf o (List.mem_cons_of_mem _ ho)) ?_
      have hop := hf op List.mem_cons_self
      have hph := step_phase s s1 op h1
      have same : ∀ cb, cb ≠ Cb.fini → s1.ran = s.ran ++ [⟨cb, s.phase, s.cur⟩] → finis s1 = finis s := by
        intro cb hc e; simp [finis, e, hc]
      have one : s1.ran = s.ran ++ [⟨.fini, s.phase, s.cur⟩] → finis s1 = finis s + 1 := by
        intro e; simp [finis, e]
      cases op with
      | boot ok b n =>
        have hb := hop.1 b ok n rfl
        subst hb
        simp only [step] at h1
        split at h1
        · rename_i hp
          cases ok with
          | true => simp only [if_true] at h1; cases h1; simp only [hp] at hi; simpa [finis] using hi
          | false =>
            simp only [Bool.false_eq_true, if_false, if_true] at h1
            have e : s1.ran = s.ran ++ [⟨.fini, s.phase, s.cur⟩] := by cases h1; exact call_ran _ _ _
            rw [one e, hi, hp, hph]; simp
        · cases h1
      | init n ok =>
        simp only [step] at h1
        split at h1
        · rename_i hp
          rw [same .init (by simp) (by cases h1; exact call_ran _ _ _), hi, hp, hph]; cases ok <;> simp
        · cases h1
      | func n =>
        simp only [step] at h1
        split at h1
        · rw [same .func (by simp) (by cases h1; exact call_ran _ _ _), hi, hph]
        · cases h1
      | timer id n =>
        simp only [step] at h1
        split at h1
        · rw [same (.timer id) (by simp) (by cases h1; exact call_ran _ _ _), hi, hph]
        · cases h1
      | fd n =>
        simp only [step] at h1
        split at h1
        · rw [same .fd (by simp) (by cases h1; exact call_ran _ _ _), hi, hph]
        · cases h1
      | kill id n =>
        simp only [step] at h1
        split at h1
        · rw [same (.dtor id) (by simp) (by cases h1; exact call_ran _ _ _), hi, hph]
        · cases h1
      | terminate =>
        simp only [step] at h1
        split at h1
        · rename_i hp; cases h1; simp only [hp] at hi; simpa [finis] using hi
        · cases h1
      | finish b n =>
        have hb := hop.2 b n rfl
        subst hb
        simp only [step] at h1
        split at h1
        · rename_i hp
          simp only [if_true] at h1
          have e : s1.ran = s.ran ++ [⟨.fini, s.phase, s.cur⟩] := by cases h1; exact call_ran _ _ _
          rw [one e, hi, hp, hph]; simp
        · cases h1
      | dtor n =>
        simp only [step] at h1
        split at h1
        · split at h1
          · rename_i id _ _
            rw [same (.dtor id) (by simp) (by cases h1; exact call_ran _ _ _), hi, hph]
          · cases h1
        · cases h1
      | exit =>
        simp only [step] at h1
        split at h1
        · rename_i hp; cases h1; simp only [hp.1] at hi; simpa [finis] using hi
        · cases h1
  exact key ops _ _ h hf rfl

/-- A queue with a timer made by a failing `init`, to its end; and one that runs a timer and a descriptor. -/
example : (run St.init [.boot true true 0, .init 1 false, .func 0, .finish true 0, .dtor 0, .exit]).map (fun s => (s.ran.map (·.cb), finis s, decide (s.phase = .gone))) =
    some ([.init, .func, .fini, .dtor 0], 1, true) := by decide
example : (run St.init [.boot true true 0, .init 1 true, .timer 0 0, .fd 0]).map (fun s => (s.ran.map (·.cb), finis s, decide (s.phase = .running))) =
    some ([.init, .timer 0, .fd], 0, true) := by decide

end Verif.QEnd
