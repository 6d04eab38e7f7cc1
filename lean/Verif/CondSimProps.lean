import Verif.CondSim
/-! Properties C172 (condition variable of the ac791n port). -/
namespace Verif.CondSim

/-- number of successful returns -/
def okays : List (Nat × Bool) → Nat
  | [] => 0
  | (_, b) :: l => (if b then 1 else 0) + okays l

theorem okays_append (a b : List (Nat × Bool)) : okays (a ++ b) = okays a + okays b := by
  induction a with
  | nil => simp [okays]
  | cons x l ih => obtain ⟨t, b'⟩ := x; simp only [List.cons_append, okays, ih]; omega

theorem run_append {s s' : St} {l m : List Act} {r : List (Nat × Bool)} (h : run s (l ++ m) = some (s', r)) :
    ∃ s1 r1 r2, run s l = some (s1, r1) ∧ run s1 m = some (s', r2) ∧ r = r1 ++ r2 := by
  induction l generalizing s r with
  | nil => exact ⟨s, [], r, rfl, h, rfl⟩
  | cons a l ih =>
    simp only [List.cons_append, run] at h
    cases hs : step s a with
    | none => simp [hs] at h
    | some p =>
      obtain ⟨s1, o⟩ := p
      simp only [hs] at h
      cases hr : run s1 (l ++ m) with
      | none => simp [hr] at h
      | some q =>
        obtain ⟨s2, r2⟩ := q
        simp only [hr, Option.some.injEq, Prod.mk.injEq] at h
        obtain ⟨h1, h2⟩ := h
        subst h1
        obtain ⟨s3, ra, rb, e1, e2, e3⟩ := ih hr
        exact ⟨s3, o.toList ++ ra, rb, by simp only [run, hs, e1], e2, by rw [← h2, e3, List.append_assoc]⟩

/-- the stored number of waiters is the number of calls inside, each thread inside once -/
structure Inv (s : St) : Prop where
  count : s.waiters = s.pend.length + s.got.length + s.late.length
  nodup : (s.pend ++ s.got ++ s.late).Nodup

theorem inv_init : Inv St.init := ⟨rfl, by simp [St.init]⟩

theorem inv_step {s s' : St} {a : Act} {o : Out} (h : Inv s) (hs : step s a = some (s', o)) : Inv s' := by
  obtain ⟨h1, h2⟩ := h
  cases a with
  | wait t =>
    simp only [step] at hs
    split at hs <;> cases hs
    rename_i hn
    refine ⟨by simp only [List.length_cons]; omega, ?_⟩
    simp only [List.cons_append, List.nodup_cons, List.mem_append, not_or]
    simp only [not_or] at hn
    exact ⟨⟨⟨hn.1, hn.2.1⟩, hn.2.2⟩, h2⟩
  | take t =>
    simp only [step] at hs
    split at hs <;> cases hs
    rename_i hn
    have hl := List.length_erase_of_mem hn.1
    have hp := List.length_pos_of_mem hn.1
    refine ⟨by simp only [List.length_cons]; omega, ?_⟩
    have hperm : (s.pend ++ s.got ++ s.late).Perm (s.pend.erase t ++ (t :: s.got) ++ s.late) := by
      rw [List.append_assoc, List.append_assoc]
      refine (List.Perm.append_right _ (List.perm_cons_erase hn.1)).trans ?_
      simp only [List.cons_append]
      exact (List.perm_middle).symm
    exact hperm.nodup_iff.1 h2
  | expire t =>
    simp only [step] at hs
    split at hs <;> cases hs
    rename_i hn
    have hl := List.length_erase_of_mem hn
    have hp := List.length_pos_of_mem hn
    refine ⟨by simp only [List.length_cons]; omega, ?_⟩
    have hperm : (s.pend ++ s.got ++ s.late).Perm (s.pend.erase t ++ s.got ++ (t :: s.late)) := by
      refine (List.Perm.append_right _ (List.Perm.append_right _ (List.perm_cons_erase hn))).trans ?_
      simp only [List.cons_append]
      exact (List.perm_middle).symm
    exact hperm.nodup_iff.1 h2
  | leave t =>
    have hsub : ∀ {p g l : List Nat}, p.Sublist s.pend → g.Sublist s.got → l.Sublist s.late → (p ++ g ++ l).Nodup :=
      fun a b c => h2.sublist ((a.append b).append c)
    simp only [step] at hs
    split at hs
    · rename_i hn
      cases hs
      have hl := List.length_erase_of_mem hn
      have hp := List.length_pos_of_mem hn
      exact ⟨by simp only; omega, hsub (List.Sublist.refl _) (List.erase_sublist) (List.Sublist.refl _)⟩
    · split at hs
      · rename_i hn
        have hl := List.length_erase_of_mem hn
        have hp := List.length_pos_of_mem hn
        split at hs <;> cases hs <;>
          exact ⟨by simp only; omega, hsub (List.Sublist.refl _) (List.Sublist.refl _) (List.erase_sublist)⟩
      · cases hs
  | signal =>
    simp only [step] at hs
    split at hs <;> cases hs <;> exact ⟨h1, h2⟩
  | broadcast => simp only [step] at hs; cases hs; exact ⟨h1, h2⟩

theorem inv_run {l : List Act} : ∀ {s s' : St} {r : List (Nat × Bool)}, Inv s → run s l = some (s', r) → Inv s' := by
  induction l with
  | nil => intro s s' r h hr; cases hr; exact h
  | cons a l ih =>
    intro s s' r h hr
    simp only [run] at hr
    cases hs : step s a with
    | none => simp [hs] at hr
    | some p =>
      obtain ⟨s1, o⟩ := p
      simp only [hs] at hr
      cases hr2 : run s1 l with
      | none => simp [hr2] at hr
      | some q =>
        obtain ⟨s2, r2⟩ := q
        simp only [hr2, Option.some.injEq, Prod.mk.injEq] at hr
        rw [← hr.1]
        exact ih (inv_step h hs) hr2

/-! ### every wake-up has a cause, and no permission is lost -/

/-- the permissions the signals and broadcasts of a run give: one for a signal with a thread inside, one for each thread inside for a broadcast -/
def given (s : St) : List Act → Nat
  | [] => 0
  | a :: l =>
    match step s a with
    | none => 0
    | some (s', _) =>
      (match a with
        | .signal => if s.pend.length + s.got.length + s.late.length = 0 then 0 else 1
        | .broadcast => s.pend.length + s.got.length + s.late.length
        | _ => 0) + given s' l

theorem accounting {l : List Act} : ∀ {s s' : St} {r : List (Nat × Bool)}, Inv s → run s l = some (s', r) →
    s.sem + s.got.length + given s l = s'.sem + s'.got.length + okays r := by
  induction l with
  | nil => intro s s' r _ hr; cases hr; simp [given, okays]
  | cons a l ih =>
    intro s s' r hI hr
    simp only [run] at hr
    cases hs : step s a with
    | none => simp [hs] at hr
    | some p =>
      obtain ⟨s1, o⟩ := p
      simp only [hs] at hr
      cases hr2 : run s1 l with
      | none => simp [hr2] at hr
      | some q =>
        obtain ⟨s2, r2⟩ := q
        simp only [hr2, Option.some.injEq, Prod.mk.injEq] at hr
        obtain ⟨e1, e2⟩ := hr
        subst e1
        have h3 := ih (inv_step hI hs) hr2
        rw [← e2, okays_append]
        simp only [given, hs]
        have hc := hI.count
        cases a with
        | wait t => simp only [step] at hs; split at hs <;> cases hs; simp [okays] at h3 ⊢; omega
        | take t =>
          simp only [step] at hs; split at hs <;> cases hs
          rename_i hn; simp [okays] at h3 ⊢; omega
        | expire t => simp only [step] at hs; split at hs <;> cases hs; simp [okays] at h3 ⊢; omega
        | leave t =>
          simp only [step] at hs
          split at hs
          · rename_i hn
            have hl := List.length_erase_of_mem hn
            have hp := List.length_pos_of_mem hn
            cases hs; simp [okays] at h3 ⊢; omega
          · split at hs
            · split at hs <;> cases hs <;> simp [okays] at h3 ⊢ <;> omega
            · cases hs
        | signal =>
          simp only [step] at hs
          split at hs <;> cases hs
          · rename_i hn
            have : ¬ (s.pend.length + s.got.length + s.late.length = 0) := by omega
            simp only [this, if_false, Option.toList_none, okays] at h3 ⊢; omega
          · rename_i hn
            have : s.pend.length + s.got.length + s.late.length = 0 := by omega
            simp only [this, if_true, Option.toList_none, okays] at h3 ⊢; omega
        | broadcast =>
          simp only [step] at hs
          cases hs
          simp only [Option.toList_none, okays] at h3 ⊢; omega

/-- C172 (every wake-up has a cause). In every history the successful waits, those about to return and the permissions left over are together exactly
    the permissions the signals and broadcasts gave: one each for a signal with a thread waiting, and one for each thread waiting for a broadcast. A signal without a
    thread waiting leaves nothing behind. -/
theorem C172_accounting_partial (l : List Act) (s : St) (r : List (Nat × Bool)) (h : run St.init l = some (s, r)) :
    given St.init l = s.sem + s.got.length + okays r := by
  have := accounting inv_init h
  simpa [St.init] using this

/-- C172 (a wait times out only when there is no permission). -/
theorem C172_timeout (s s' : St) (a : Act) (t : Nat) (hs : step s a = some (s', some (t, false))) : a = .leave t ∧ s.sem = 0 ∧ t ∈ s.late := by
  cases a with
  | leave u =>
    simp only [step] at hs
    split at hs
    · cases hs
    · split at hs
      · rename_i hn
        split at hs <;> cases hs
        rename_i h0
        exact ⟨rfl, by omega, hn⟩
      · cases hs
  | wait u => simp only [step] at hs; split at hs <;> cases hs
  | take u => simp only [step] at hs; split at hs <;> cases hs
  | expire u => simp only [step] at hs; split at hs <;> cases hs
  | signal => simp only [step] at hs; cases hs
  | broadcast => simp only [step] at hs; cases hs

def noWait : Act → Prop
  | .wait _ => False
  | _ => True

/-- threads still waiting for a permission -/
def St.open (s : St) : Nat := s.pend.length + s.late.length

theorem enough_step {s s' : St} {a : Act} {o : Out} (hI : Inv s) (h : s.open ≤ s.sem) (hn : noWait a) (hs : step s a = some (s', o)) :
    s'.open ≤ s'.sem ∧ ∀ t, o ≠ some (t, false) := by
  unfold St.open at *
  cases a with
  | wait t => exact hn.elim
  | take t =>
    simp only [step] at hs; split at hs <;> cases hs
    rename_i hm
    have hl := List.length_erase_of_mem hm.1
    have hp := List.length_pos_of_mem hm.1
    exact ⟨by simp only; omega, by simp⟩
  | expire t =>
    simp only [step] at hs; split at hs <;> cases hs
    rename_i hm
    have hl := List.length_erase_of_mem hm
    have hp := List.length_pos_of_mem hm
    exact ⟨by simp only [List.length_cons]; omega, by simp⟩
  | leave t =>
    simp only [step] at hs
    split at hs
    · cases hs; exact ⟨h, by simp⟩
    · split at hs
      · rename_i hm
        have hl := List.length_erase_of_mem hm
        have hp := List.length_pos_of_mem hm
        split at hs <;> cases hs
        · exact ⟨by simp only; omega, by simp⟩
        · omega
      · cases hs
  | signal => simp only [step] at hs; split at hs <;> cases hs <;> exact ⟨by (try simp only); omega, by simp⟩
  | broadcast => simp only [step] at hs; cases hs; exact ⟨by simp only; omega, by simp⟩

theorem enough_run {l : List Act} : ∀ {s s' : St} {r : List (Nat × Bool)}, Inv s → s.open ≤ s.sem → (∀ a ∈ l, noWait a) → run s l = some (s', r) →
    s'.open ≤ s'.sem ∧ Inv s' ∧ ∀ t, (t, false) ∉ r := by
  induction l with
  | nil => intro s s' r hI h _ hr; cases hr; exact ⟨h, hI, by simp⟩
  | cons a l ih =>
    intro s s' r hI h hn hr
    simp only [run] at hr
    cases hs : step s a with
    | none => simp [hs] at hr
    | some p =>
      obtain ⟨s1, o⟩ := p
      simp only [hs] at hr
      cases hr2 : run s1 l with
      | none => simp [hr2] at hr
      | some q =>
        obtain ⟨s2, r2⟩ := q
        simp only [hr2, Option.some.injEq, Prod.mk.injEq] at hr
        obtain ⟨e1, e2⟩ := hr
        subst e1
        obtain ⟨h1, h2⟩ := enough_step hI h (hn a (by simp)) hs
        obtain ⟨h3, h4, h5⟩ := ih (inv_step hI hs) h1 (fun b hb => hn b (by simp [hb])) hr2
        refine ⟨h3, h4, ?_⟩
        intro t ht
        rw [← e2, List.mem_append] at ht
        rcases ht with ht | ht
        · cases o with
          | none => simp at ht
          | some x => simp at ht; exact h2 t (by rw [← ht])
        · exact h5 t ht

/-- C172 (a broadcast wakes everybody; partial). After a broadcast and until another wait begins: whatever happens, no wait ends by a time-out, and every thread
    still waiting can go on by itself, its semaphore call returns at once.
    Missing: waits that begin before the threads of the broadcast have left (`C172_broadcast_lost`). -/
theorem C172_broadcast_partial (l m : List Act) (s : St) (r : List (Nat × Bool)) (hm : ∀ a ∈ m, noWait a) (h : run St.init (l ++ .broadcast :: m) = some (s, r)) :
    (∃ s1 r1 r2, run St.init (l ++ [.broadcast]) = some (s1, r1) ∧ run s1 m = some (s, r2) ∧ ∀ t, (t, false) ∉ r2) ∧
      ∀ t ∈ s.pend, ∃ s1, step s (.take t) = some (s1, none) ∧ ∃ s2, step s1 (.leave t) = some (s2, some (t, true)) := by
  rw [show l ++ Act.broadcast :: m = (l ++ [.broadcast]) ++ m by simp] at h
  obtain ⟨s1, r1, r2, e1, e2, e3⟩ := run_append h
  have hI1 := inv_run inv_init e1
  have hen : s1.open ≤ s1.sem := by
    obtain ⟨s0, ra, rb, f1, f2, f3⟩ := run_append e1
    have hI0 := (inv_run inv_init f1).count
    simp only [run, step] at f2
    cases f2
    simp only [St.open]; omega
  obtain ⟨g1, g2, g3⟩ := enough_run hI1 hen hm e2
  refine ⟨⟨s1, r1, r2, e1, e2, g3⟩, ?_⟩
  intro t ht
  have hp := List.length_pos_of_mem ht
  have hpos : 0 < s.sem := by simp only [St.open] at g1; omega
  refine ⟨_, by simp only [step, ht, hpos, and_self, if_true]; rfl, ?_⟩
  refine ⟨_, by simp only [step, List.mem_cons, true_or, if_true]; rfl⟩

/-- non-vacuity: two waiting threads, a broadcast, one of them times out at that moment and still succeeds -/
example : ((run .init ([.wait 1, .wait 2] ++ .broadcast :: [.expire 1, .leave 1, .take 2, .leave 2])).map fun p => (p.1.sem, p.2)) = some (0, [(1, true), (2, true)]) := by decide +kernel

/-- C172 (a signal wakes a thread; partial). If a thread waits when a signal is given, then, whatever happens afterwards, the permission is there for the
    next thread that asks, or some thread has got it, or a wait has returned successfully.
    Missing: that it is one of the threads that waited when the signal was given (`C172_signal_stolen`). -/
theorem C172_signal_partial (l m : List Act) (s0 s1 s : St) (r0 r : List (Nat × Bool)) (h0 : run St.init l = some (s0, r0)) (hw : ∃ t, s0.inside t)
    (h1 : step s0 .signal = some (s1, none)) (h : run s1 m = some (s, r)) : 0 < s.sem ∨ s.got ≠ [] ∨ ∃ t, (t, true) ∈ r := by
  have hI := inv_run inv_init h0
  have hI1 := inv_step hI h1
  have hacc := accounting hI1 h
  have hpos : 0 < s1.sem := by
    simp only [step] at h1
    have : 0 < s0.waiters := by
      obtain ⟨t, ht⟩ := hw
      have hc := hI.count
      rcases ht with ht | ht | ht <;> have := List.length_pos_of_mem ht <;> omega
    simp only [this, if_true] at h1
    cases h1
    simp
  by_cases h2 : 0 < s.sem
  · exact .inl h2
  · by_cases h3 : s.got = []
    · right; right
      have : 0 < okays r := by rw [h3] at hacc; simp only [List.length_nil] at hacc; omega
      clear hacc h
      induction r with
      | nil => simp [okays] at this
      | cons x r ih =>
        obtain ⟨t, b⟩ := x
        cases b with
        | true => exact ⟨t, by simp⟩
        | false =>
          obtain ⟨u, hu⟩ := ih (by simpa [okays] using this)
          exact ⟨u, by simp [hu]⟩
    · exact .inr (.inl h3)

/-- a thread that waits without limit and finds no permission cannot go on by itself -/
def Stuck (s : St) (t : Nat) : Prop := t ∈ s.pend ∧ step s (.take t) = none ∧ step s (.leave t) = none

/-- C172 is false of the code: thread `a` waits when the signal is given, and is the only one; thread `b`, which begins to wait afterwards, takes the
    permission; `a` goes on waiting. -/
theorem C172_signal_stolen (a b : Nat) (h : a ≠ b) : ∃ s r, run St.init [.wait a, .signal, .wait b, .take b, .leave b] = some (s, r) ∧ r = [(b, true)] ∧ Stuck s a := by
  have h' : ¬ b = a := fun e => h e.symm
  refine ⟨⟨1, 0, [a], [], []⟩, [(b, true)], ?_, rfl, ?_⟩
  · simp [run, step, St.init, h', h]
  · simp [Stuck, step]

/-- C172 is false of the code: threads `a` and `b` wait when everybody is woken; `b` wakes, finds its condition false, waits again and takes the permission
    of `a`, which goes on waiting although the broadcast was for it. -/
theorem C172_broadcast_lost (a b : Nat) (h : a ≠ b) :
    ∃ s r, run St.init [.wait a, .wait b, .broadcast, .take b, .leave b, .wait b, .take b, .leave b] = some (s, r) ∧ r = [(b, true), (b, true)] ∧ Stuck s a := by
  have h' : ¬ b = a := fun e => h e.symm
  refine ⟨⟨1, 0, [a], [], []⟩, [(b, true), (b, true)], ?_, rfl, ?_⟩
  · simp [run, step, St.init, h', h]
  · simp [Stuck, step]

/-- A permission may be left over: two signals for one waiting thread; the next wait returns at once although nothing was signalled since it began. -/
theorem C172_left_over (a : Nat) : ∃ s r, run St.init [.wait a, .signal, .signal, .take a, .leave a, .wait a, .take a, .leave a] = some (s, r) ∧ r = [(a, true), (a, true)] := by
  refine ⟨⟨0, 0, [], [], []⟩, _, ?_, rfl⟩
  simp [run, step, St.init]

/-- C172 (time-outs). For a positive number of milliseconds the wait is at most the time asked for, and more than it less one tick, except that it is never
    less than a tick; for 0 (and below) it is without limit: aosl_cond_timedwait with 0 does not return. -/
theorem C172_ticks (ms : Int) (h : 0 < ms) : 0 < ticks ms ∧ (10 ≤ ms → ticks ms * 10 ≤ ms) ∧ ms < ticks ms * 10 + 10 := by
  unfold ticks
  rw [if_pos h]
  have e : ms.tdiv 10 = ms / 10 := Int.tdiv_eq_ediv_of_nonneg (by omega)
  rw [e]
  split <;> omega

theorem C172_zero_forever (ms : Int) (h : ms ≤ 0) : ticks ms = 0 := by
  unfold ticks; rw [if_neg (by omega)]

example : ticks 25 = 2 ∧ ticks 3 = 1 ∧ ticks 0 = 0 := by decide

end Verif.CondSim
