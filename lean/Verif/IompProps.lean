import Verif.Iomp
/-! # C115: a wait reports exactly the due events; C116: no fd starves; C117: errors on an fd are noticed -/

namespace Verif.Iomp

theorem due_eq (rdy : Nat → Rdy) (f : Fd) : due rdy f = if ((halSelect rdy f).1 || (halSelect rdy f).2) then some ⟨f.fd, (halSelect rdy f).1, (halSelect rdy f).2⟩ else none := by
  obtain ⟨fd, a, b⟩ := f
  cases a <;> cases b <;> cases h1 : (rdy fd).rd <;> cases h2 : (rdy fd).wr <;> simp [due, halSelect, h1, h2]

theorem after_none (rdy : Nat → Rdy) : ∀ (fs : List Fd) (n : Nat), fs.filterMap (due rdy) = [] → after rdy n fs = fs := by
  intro fs
  induction fs with
  | nil => intro n _; cases n <;> rfl
  | cons f fs ih =>
    intro n h
    cases n with
    | zero => rfl
    | succ n =>
      cases hd : due rdy f with
      | none =>
        simp only [List.filterMap_cons, hd] at h
        simp only [after, hd, Option.isSome_none, Bool.false_eq_true, if_false, ih _ h]
      | some e => simp [List.filterMap_cons, hd] at h

theorem collect_spec (rdy : Nat → Rdy) (err max : Nat) : ∀ (fs : List Fd) (i : Nat), i + (fs.filterMap (due rdy)).length ≤ err → i < max →
    collect err max (halSelect rdy) i fs = ((fs.filterMap (due rdy)).take (max - i), after rdy (max - i) fs) := by
  intro fs
  induction fs with
  | nil => intro i _ h; obtain ⟨k, hk⟩ : ∃ k, max - i = k + 1 := ⟨max - i - 1, by omega⟩; simp [collect, after]
  | cons f fs ih =>
    intro i he hm
    obtain ⟨k, hk⟩ : ∃ k, max - i = k + 1 := ⟨max - i - 1, by omega⟩
    have hd := due_eq rdy f
    have hsp : ({ f with inA := f.inA && !(halSelect rdy f).1, outA := f.outA && !(halSelect rdy f).2 } : Fd) = spent rdy f := by
      obtain ⟨fd, a, b⟩ := f
      simp only [halSelect, spent]
      cases a <;> cases b <;> cases (rdy fd).rd <;> cases (rdy fd).wr <;> rfl
    cases hh : ((halSelect rdy f).1 || (halSelect rdy f).2) with
    | true =>
      rw [hh, if_pos rfl] at hd
      simp only [List.filterMap_cons, hd, List.length_cons] at he
      simp only [collect, hh, if_true, hsp, hk, List.filterMap_cons, hd, List.take_succ_cons, after, Option.isSome_some]
      by_cases h1 : i + 1 ≥ err ∨ i + 1 ≥ max
      · rw [if_pos h1]
        by_cases h2 : i + 1 ≥ max
        · have : k = 0 := by omega
          subst this
          cases fs <;> simp [after]
        · have h3 : fs.filterMap (due rdy) = [] := List.length_eq_zero_iff.1 (by omega)
          rw [h3, after_none rdy fs k h3]; simp
      · rw [if_neg h1, ih (i + 1) (by omega) (by omega)]
        have : max - (i + 1) = k := by omega
        rw [this]; rfl
    | false =>
      rw [hh, if_neg (by simp)] at hd
      simp only [List.filterMap_cons, hd] at he
      have hr : (halSelect rdy f).1 = false := by
        cases h : (halSelect rdy f).1 with
        | false => rfl
        | true => rw [h] at hh; simp at hh
      have hw : (halSelect rdy f).2 = false := by
        cases h : (halSelect rdy f).2 with
        | false => rfl
        | true => rw [h] at hh; simp at hh
      have hf : ({ f with inA := f.inA && !(halSelect rdy f).1, outA := f.outA && !(halSelect rdy f).2 } : Fd) = f := by
        rw [hr, hw]; simp
      simp only [collect, hh, hf, hk, List.filterMap_cons, hd, after, Option.isSome_none, Bool.false_eq_true, if_false, List.nil_append]
      by_cases h1 : i ≥ err ∨ i ≥ max
      · rw [if_pos h1]
        have h3 : fs.filterMap (due rdy) = [] := List.length_eq_zero_iff.1 (by omega)
        rw [h3, after_none rdy fs (k + 1) h3]; simp
      · rw [if_neg h1, ih i (by omega) hm, hk]

/-- No junk on the stack. -/
def clean : Fd → Bool × Bool := fun _ => (false, false)

theorem halPoll_clean (rdy : Nat → Rdy) (f : Fd) : ((halPoll rdy clean f).1, (halPoll rdy clean f).2.1) = halSelect rdy f := by
  simp [halPoll, clean, halSelect]

theorem due_le (rdy : Nat → Rdy) (fs : List Fd) : (fs.filterMap (due rdy)).length ≤ (fs.filter fun f => (halPoll rdy clean f).2.2).length := by
  induction fs with
  | nil => simp
  | cons f fs ih =>
    have hd := due_eq rdy f
    rw [← halPoll_clean] at hd
    have h2 : (halPoll rdy clean f).2.2 = ((halPoll rdy clean f).1 || (halPoll rdy clean f).2.1 || (rdy f.fd).other) := rfl
    rw [List.filterMap_cons, List.filter_cons, hd, h2]
    generalize (halPoll rdy clean f).1 = a
    generalize (halPoll rdy clean f).2.1 = b
    generalize (rdy f.fd).other = c
    cases a <;> cases b <;> cases c <;> simp <;> omega

theorem due_le_bits (rdy : Nat → Rdy) (fs : List Fd) : (fs.filterMap (due rdy)).length ≤ (fs.map fun f => bit (halSelect rdy f).1 + bit (halSelect rdy f).2).sum := by
  induction fs with
  | nil => simp
  | cons f fs ih =>
    simp only [List.filterMap_cons, due_eq, List.map_cons, List.sum_cons]
    generalize (fs.map fun f => bit (halSelect rdy f).1 + bit (halSelect rdy f).2).sum = m at ih
    cases (halSelect rdy f).1 <;> cases (halSelect rdy f).2 <;> simp [bit] <;> omega

/-- **C115**, poll without junk: the wait reports exactly the directions that are registered, armed and ready, in the order of the registrations and the queue's pipe first, cut off at the size of the array;
what has been reported is disarmed and everything else is left as it was. -/
theorem C115_poll_partial (max sig : Nat) (rdy : Nat → Rdy) (fds : List Fd) (hm : 2 ≤ max) :
    waitPoll max sig rdy clean fds = ((allDue sig rdy fds).take max, after rdy (max - bit (rdy sig).rd) fds) := by
  have hle := due_le rdy fds
  have hfun : (fun f => ((halPoll rdy clean f).1, (halPoll rdy clean f).2.1)) = halSelect rdy := funext fun f => halPoll_clean rdy f
  simp only [waitPoll, allDue, hfun]
  generalize (fds.filter fun f => (halPoll rdy clean f).2.2).length = m at hle
  cases hs : (rdy sig).rd with
  | true =>
    simp only [Bool.true_or, if_true, List.length_singleton, bit]
    rw [if_neg (by omega), collect_spec rdy (1 + m) max fds 1 (by omega) (by omega)]
    obtain ⟨k, hk⟩ : ∃ k, max = k + 1 := ⟨max - 1, by omega⟩
    subst hk
    simp
  | false =>
    simp only [Bool.false_or, Bool.false_eq_true, if_false, List.length_nil, bit, List.nil_append, Nat.sub_zero]
    generalize (if (rdy sig).other = true then 1 else 0) = c
    by_cases h0 : c + m = 0
    · rw [if_pos h0]
      have h3 : fds.filterMap (due rdy) = [] := List.length_eq_zero_iff.1 (by omega)
      rw [h3, after_none rdy fds max h3]; simp
    · rw [if_neg h0, collect_spec rdy _ max fds 0 (by omega) (by omega)]; simp

/-- **C115**, select. -/
theorem C115_select (max sig : Nat) (rdy : Nat → Rdy) (fds : List Fd) (hm : 2 ≤ max) :
    waitSelect max sig rdy fds = ((allDue sig rdy fds).take max, after rdy (max - bit (rdy sig).rd) fds) := by
  have hle := due_le_bits rdy fds
  simp only [waitSelect, allDue]
  generalize (fds.map fun f => bit (halSelect rdy f).1 + bit (halSelect rdy f).2).sum = m at hle
  cases hs : (rdy sig).rd with
  | true =>
    simp only [bit, if_true, List.length_singleton]
    rw [if_neg (by omega), collect_spec rdy (1 + m) max fds 1 (by omega) (by omega)]
    obtain ⟨k, hk⟩ : ∃ k, max = k + 1 := ⟨max - 1, by omega⟩
    subst hk
    simp
  | false =>
    simp only [bit, Bool.false_eq_true, if_false, List.length_nil, List.nil_append, Nat.sub_zero]
    split
    · rename_i h0
      have h3 : fds.filterMap (due rdy) = [] := List.length_eq_zero_iff.1 (by omega)
      rw [h3, after_none rdy fds max h3]; simp
    · rw [collect_spec rdy _ max fds 0 (by omega) (by omega)]; simp

/-- **C115** fails for poll: what `aosl_hal_poll` finds on its stack counts as interest, so that a direction is reported that is not armed. -/
theorem C115_junk : ∃ (rdy : Nat → Rdy) (junk : Fd → Bool × Bool), (waitPoll 64 3 rdy junk [⟨5, true, false⟩]).1 = [⟨5, false, true⟩] :=
  ⟨fun n => ⟨false, n = 5, false⟩, fun _ => (false, true), by decide +kernel⟩

/-- A direction that has been reported is not reported again before it is armed again. -/
theorem C115_once (rdy rdy' : Nat → Rdy) (f : Fd) (e : Ev) (h : due rdy f = some e) : 
    (e.rd = true → ∀ e', due rdy' (spent rdy f) = some e' → e'.rd = false) ∧ (e.wr = true → ∀ e', due rdy' (spent rdy f) = some e' → e'.wr = false) := by
  rw [due_eq] at h
  have h0 : e = ⟨f.fd, (halSelect rdy f).1, (halSelect rdy f).2⟩ := by
    split at h
    · exact (Option.some.inj h).symm
    · cases h
  subst h0
  have h1 : ∀ e', due rdy' (spent rdy f) = some e' → e' = ⟨f.fd, (halSelect rdy' (spent rdy f)).1, (halSelect rdy' (spent rdy f)).2⟩ := by
    intro e' he
    rw [due_eq] at he
    split at he
    · exact (Option.some.inj he).symm
    · cases he
  refine ⟨fun h e' he => ?_, fun h e' he => ?_⟩
  · rw [h1 e' he]
    simp only [halSelect, Bool.and_eq_true] at h
    simp [halSelect, spent, h.2]
  · rw [h1 e' he]
    simp only [halSelect, Bool.and_eq_true] at h
    simp [halSelect, spent, h.2]

/-! ## C116 -/

/-- Both directions armed again, as after callbacks that read and write until EAGAIN. -/
def rearm (f : Fd) : Fd := { f with inA := true, outA := true }

/-- What `n` waits in a row report, the OS finding `rdy k` ready in the `k`-th one. -/
def rounds (sig : Nat) (rdy : Nat → Nat → Rdy) : Nat → List Fd → List (List Ev)
  | 0, _ => []
  | n + 1, fds => rounds sig rdy n fds ++ [(waitPoll 64 sig (rdy n) clean (fds.map rearm)).1]

theorem filterMap_full (rdy : Nat → Rdy) (fs : List Fd) (h : ∀ f ∈ fs, (rdy f.fd).rd = true ∧ f.inA = true) : (fs.filterMap (due rdy)).map Ev.fd = fs.map Fd.fd := by
  induction fs with
  | nil => rfl
  | cons f fs ih =>
    obtain ⟨h1, h2⟩ := h f (by simp)
    have : due rdy f = some ⟨f.fd, f.inA && (rdy f.fd).rd, f.outA && (rdy f.fd).wr⟩ := by simp [due, h1, h2]
    simp [List.filterMap_cons, this, ih (fun g hg => h g (List.mem_cons_of_mem _ hg))]

/-- **C116** fails: as long as the 64 fds registered first always have input, no fd behind them is ever served, even though all are armed again after each wait. -/
theorem C116_starves (sig : Nat) (rdy : Nat → Nat → Rdy) (front back : List Fd) (hl : front.length = 64) (hr : ∀ k, ∀ f ∈ front, (rdy k f.fd).rd = true)
    (n : Nat) : ∀ evs ∈ rounds sig rdy n (front ++ back), ∀ e ∈ evs, e.fd = sig ∨ e.fd ∈ front.map Fd.fd := by
  induction n with
  | zero => intro evs h; cases h
  | succ n ih =>
    intro evs h e he
    simp only [rounds, List.mem_append, List.mem_singleton] at h
    rcases h with h | h
    · exact ih evs h e he
    · subst h
      rw [C115_poll_partial 64 sig _ _ (by omega)] at he
      simp only [allDue, List.map_append, List.filterMap_append] at he
      have hf := filterMap_full (rdy n) (front.map rearm) (by
        intro f hf
        obtain ⟨g, hg, e⟩ := List.mem_map.1 hf
        subst e
        exact ⟨hr n g hg, rfl⟩)
      have hfd : (front.map rearm).map Fd.fd = front.map Fd.fd := by simp [rearm, Function.comp_def]
      rw [hfd] at hf
      have hlen : ((front.map rearm).filterMap (due (rdy n))).length = 64 := by
        have := congrArg List.length hf
        simpa [hl] using this
      rw [← List.append_assoc] at he
      rw [List.take_append_of_le_length (by rw [List.length_append, hlen]; omega)] at he
      have := List.mem_of_mem_take he
      rcases List.mem_append.1 this with h | h
      · split at h
        · simp only [List.mem_singleton] at h; subst h; exact Or.inl rfl
        · cases h
      · right
        rw [← hf]
        exact List.mem_map_of_mem h

/-- **C116**, what holds: with at most 64 due events (the queue's pipe included) all of them are reported. -/
theorem C116_served_partial (sig : Nat) (rdy : Nat → Rdy) (fds : List Fd) (h : (allDue sig rdy fds).length ≤ 64) :
    (waitPoll 64 sig rdy clean fds).1 = allDue sig rdy fds ∧ (waitSelect 64 sig rdy fds).1 = allDue sig rdy fds := by
  rw [C115_poll_partial 64 sig rdy fds (by omega), C115_select 64 sig rdy fds (by omega)]
  simp [List.take_of_length_le h]

/-! ## C117 -/

/-- **C117** fails for poll: an fd about which the OS only reports an error or a hang-up makes every wait return at once without an event, so that it is neither read nor closed. -/
theorem C117_error_ignored (sig : Nat) (rdy : Nat → Rdy) (fds : List Fd) (f : Fd) (hf : f ∈ fds) (he : (rdy f.fd).other = true)
    (hq : ∀ g ∈ fds, (rdy g.fd).rd = false ∧ (rdy g.fd).wr = false) (hs : (rdy sig).rd = false) :
    (∃ g ∈ fds, (halPoll rdy clean g).2.2 = true) ∧ waitPoll 64 sig rdy clean fds = ([], fds) := by
  refine ⟨⟨f, hf, by simp [halPoll, he]⟩, ?_⟩
  have hd : fds.filterMap (due rdy) = [] := by
    rw [List.filterMap_eq_nil_iff]
    intro g hg
    obtain ⟨h1, h2⟩ := hq g hg
    simp [due, h1, h2]
  rw [C115_poll_partial 64 sig rdy fds (by omega), after_none rdy fds _ hd]
  simp [allDue, hd, hs]

/-! ## Non-vacuity -/

def exRdy : Nat → Rdy := fun n => ⟨n % 2 == 0, n % 3 == 0, false⟩
def exFds : List Fd := [added 4 true true, ⟨6, false, true⟩, ⟨8, true, false⟩, ⟨9, true, true⟩, ⟨7, true, true⟩]

example : waitPoll 64 2 exRdy clean exFds = ([⟨2, true, false⟩, ⟨4, true, false⟩, ⟨6, false, true⟩, ⟨8, true, false⟩, ⟨9, false, true⟩],
    [⟨4, false, true⟩, ⟨6, false, false⟩, ⟨8, false, false⟩, ⟨9, true, false⟩, ⟨7, true, true⟩]) := by decide +kernel

example : waitSelect 3 2 exRdy exFds = ([⟨2, true, false⟩, ⟨4, true, false⟩, ⟨6, false, true⟩],
    [⟨4, false, true⟩, ⟨6, false, false⟩, ⟨8, true, false⟩, ⟨9, true, true⟩, ⟨7, true, true⟩]) := by decide +kernel

/-- 64 fds that are always readable, and one more. -/
example : ((List.range 64).map fun k => added (k + 10) true true).length = 64 ∧ ∀ k, ∀ f ∈ (List.range 64).map (fun k => added (k + 10) true true), ((fun _ n => ⟨decide (n ≥ 10), true, false⟩ : Nat → Nat → Rdy) k f.fd).rd = true := by
  refine ⟨by simp, fun k f hf => ?_⟩
  obtain ⟨j, -, e⟩ := List.mem_map.1 hf
  subst e
  simp [added]

/-! ## C145: how many fds a queue may have -/

/-- **C145**, what holds: the wait starts with any fds (epoll), with up to 1024 fds (poll), with fds numbered below 1024 (select). -/
theorem C145_waits_partial (sig : Nat) (fds : List Fd) :
    start .epoll sig fds = .waits ∧ (fds.length ≤ 1024 → start .poll sig fds = .waits) ∧
    (sig < 1024 → (∀ f ∈ fds, f.fd < 1024) → start .select sig fds = .waits) := by
  refine ⟨rfl, fun h => ?_, fun hs h => ?_⟩
  · have e : pollMax = 1024 := rfl
    simp only [start]; rw [if_neg (by omega)]
  · have e : setSize = 1024 := rfl
    simp only [start]
    rw [if_neg]
    rintro (h1 | h1)
    · omega
    · simp only [List.any_eq_true, Bool.and_eq_true, decide_eq_true_eq] at h1
      obtain ⟨f, hf, -, h2⟩ := h1
      have := h f hf
      omega

/-- **C145** fails with poll: every queue to which more than 1024 fds were added (aosl_mpq_add_fd returned 0 for each) ends the process when it waits. -/
theorem C145_poll_aborts (sig : Nat) (fds : List Fd) (h : 1024 < fds.length) : start .poll sig fds = .abort := by
  simp [start, pollMax, h]

/-- **C145** fails with select: one fd numbered 1024 or more, with a read or a write function, makes the queue write outside its fd set. -/
theorem C145_select_overflows (sig : Nat) (fds : List Fd) (fd : Nat) (r w : Bool) (hf : added fd r w ∈ fds) (hrw : r = true ∨ w = true) (h : 1024 ≤ fd) :
    start .select sig fds = .outOfBounds := by
  simp only [start]
  rw [if_pos]
  right
  rw [List.any_eq_true]
  refine ⟨_, hf, ?_⟩
  simp only [added, Bool.and_eq_true, Bool.or_eq_true, decide_eq_true_eq]
  have e : setSize = 1024 := rfl
  exact ⟨hrw, decide_eq_true (show setSize ≤ fd by omega)⟩

example : start .select 5 [added 1023 true true] = .waits ∧ start .select 5 [added 1024 true true] = .outOfBounds ∧
    start .poll 5 (List.replicate 1025 (added 7 true true)) = .abort := by decide +kernel

end Verif.Iomp
