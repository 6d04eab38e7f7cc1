import Verif.Arm
/-! # C119: accepted output does not get stuck -/

namespace Verif.Arm

structure Inv (s : St) : Prop where
  nn : s.wf = .dflt
  rdy : s.notReady = true → s.conn = false ∨ s.edge = true ∨ (s.free = 0 ∧ s.want = true)
  level : s.q ≠ [] ∨ s.notReady = true → s.armed = true
  full : s.q ≠ [] → s.conn = false ∨ s.edge = true ∨ (s.free = 0 ∧ s.want = true)
  conn : s.conn = false → s.notReady = true
  ec : s.edge = true → s.conn = true
  wc : s.want = true → s.conn = true

theorem inv_init (mode : Mode) (conn : Bool) (free : Nat) : Inv (init mode .dflt conn free) := by
  refine ⟨rfl, ?_, ?_, ?_, ?_, ?_, ?_⟩ <;> cases conn <;> simp [init]

theorem drain_inv (ns : List Nat) : ∀ (s : St), s.wf = .dflt → s.conn = true → s.notReady = false → ∃ s', drain s ns = some s' ∧ Inv s' ∧ s'.mode = s.mode ∧
    (s'.q ≠ [] → s'.free = 0) := by
  induction ns with
  | nil => intro s h1 h2 h3; exact ⟨_, rfl, ⟨h1, by simp [h3], by simp [h3], by simp, by simp [h2], fun _ => h2, fun _ => h2⟩, rfl, by simp⟩
  | cons n ns ih =>
    intro s h1 h2 h3
    have hoff : offered s.wf n = n := by rw [h1]; rfl
    simp only [drain, h1, reduceCtorEq, if_false, osWrite, h2, Bool.true_eq_false, false_or]
    by_cases hf : s.free = 0
    · simp only [hf, if_true]
      refine ⟨_, rfl, ⟨rfl, by simp [h3], by simp, ?_, by simp, fun _ => rfl, fun _ => rfl⟩, rfl, by simp⟩
      intro _; right; right; simp
    · simp only [hf, if_false, offered]
      by_cases hk : min n s.free < n
      · rw [if_pos hk]
        refine ⟨_, rfl, ⟨rfl, by simp [h3], by simp, ?_, by simp, fun _ => rfl, fun _ => rfl⟩, rfl, ?_⟩
        · intro _; right; right
          have hm : min n s.free = s.free := by omega
          have : s.free < n := by omega
          simp [hm, this]
        · intro _; simp only; omega
      · rw [if_neg hk]
        exact ih _ rfl rfl h3

theorem write_inv (s : St) (n : Nat) (h : Inv s) : Inv (write s n) := by
  simp only [write]
  by_cases hq : s.q ≠ [] ∨ s.notReady = true
  · rw [if_pos hq]
    refine ⟨h.nn, h.rdy, fun _ => h.level hq, fun _ => ?_, h.conn, h.ec, h.wc⟩
    rcases hq with hq | hq
    · exact h.full hq
    · exact h.rdy hq
  · rw [if_neg hq]
    have hq0 : s.q = [] := by
      cases hh : s.q with
      | nil => rfl
      | cons a l => exact absurd (.inl (by simp [hh])) hq
    have hr : s.notReady = false := by
      cases hh : s.notReady with
      | false => rfl
      | true => exact absurd (.inr hh) hq
    have hc : s.conn = true := by
      cases hh : s.conn with
      | true => rfl
      | false => have := h.conn hh; rw [hr] at this; cases this
    simp only [osWrite, hc, Bool.true_eq_false, false_or]
    by_cases hf : s.free = 0
    · simp only [hf, if_true]
      exact ⟨h.nn, by simp [hr], by simp, by simp [hq0], by simp, fun _ => rfl, fun _ => rfl⟩
    · simp only [hf, if_false]
      by_cases hk0 : min n s.free = 0
      · rw [if_pos hk0]
        exact ⟨h.nn, by simp [hr], by simp, by simp [hq0], by simp, fun _ => rfl, fun _ => rfl⟩
      · rw [if_neg hk0]
        by_cases hk : min n s.free < n
        · rw [if_pos hk]
          refine ⟨h.nn, by simp [hr], by simp, ?_, by simp, fun _ => rfl, fun _ => rfl⟩
          intro _; right; right
          have hm : min n s.free = s.free := by omega
          have : s.free < n := by omega
          simp [hm, this]
        · rw [if_neg hk]
          exact ⟨h.nn, by simp [hr], by simp, by simp [hq0], by simp, fun _ => rfl, fun _ => rfl⟩

theorem step_inv (s : St) (a : Act) (h : Inv s) : step s a ≠ .crash ∧ ∀ s', step s a = .ok s' → Inv s' := by
  cases a with
  | write n => exact ⟨by simp [step], fun s' e => by simp only [step, Res.ok.injEq] at e; subst e; exact write_inv s n h⟩
  | taken k =>
    simp only [step]
    by_cases hk : k = 0
    · simp [hk]
    · rw [if_neg hk]
      refine ⟨by simp, fun s' e => ?_⟩
      simp only [Res.ok.injEq] at e
      subst e
      have hw := h.nn
      refine ⟨h.nn, fun hr => ?_, h.level, fun hq => ?_, h.conn, fun he => ?_, by simp⟩
      · rcases h.rdy hr with h1 | h1 | h1
        · exact .inl h1
        · exact .inr (.inl (by simp [h1]))
        · exact .inr (.inl (by simp [h1.2, hw]))
      · rcases h.full hq with h1 | h1 | h1
        · exact .inl h1
        · exact .inr (.inl (by simp [h1]))
        · exact .inr (.inl (by simp [h1.2, hw]))
      · simp only [Bool.or_eq_true, Bool.and_eq_true] at he
        rcases he with he | he
        · exact h.ec he
        · exact h.wc he.1
  | connected =>
    simp only [step]
    cases hc : s.conn with
    | true => simp
    | false =>
      refine ⟨by simp, fun s' e => ?_⟩
      simp only [Bool.false_eq_true, if_false, Res.ok.injEq] at e
      subst e
      have key : (s.edge || (decide (s.wf ≠ .null) && decide (0 < s.free))) = true ∨ (s.free = 0 ∧ decide (s.free = 0) = true) := by
        by_cases hf : s.free = 0
        · right; simp [hf]
        · left; simp [h.nn]; right; omega
      exact ⟨h.nn, fun _ => .inr key, h.level, fun _ => .inr key, by simp, fun _ => rfl, fun _ => rfl⟩
  | event =>
    simp only [step]
    cases hr : reports s with
    | false => simp
    | true =>
      have hc : s.conn = true := by
        simp only [reports] at hr
        split at hr
        · simp at hr; exact hr.1.2
        · exact h.ec hr
      have key : ∀ s1 : St, s1.wf = s.wf → s1.conn = s.conn → ∃ s', handle s1 = some s' ∧ Inv s' := by
        intro s1 e1 e2
        obtain ⟨s', e, hi, -⟩ := drain_inv s1.q { s1 with notReady := false } (e1.trans h.nn) (e2.trans hc) rfl
        exact ⟨s', e, hi⟩
      cases hm : s.mode with
      | level =>
        obtain ⟨s', e, hi⟩ := key { s with armed := false } rfl rfl
        simp only [hm] at e
        simp only [if_true, e]
        exact ⟨by simp, fun s'' e2 => by simp only [Res.ok.injEq] at e2; subst e2; exact hi⟩
      | edge =>
        obtain ⟨s', e, hi⟩ := key { s with edge := false } rfl rfl
        simp only [hm] at e
        simp only [if_true, e]
        exact ⟨by simp, fun s'' e2 => by simp only [Res.ok.injEq] at e2; subst e2; exact hi⟩

theorem run_inv : ∀ (as : List Act) (s : St), Inv s → run s as ≠ .crash ∧ ∀ s', run s as = .ok s' → Inv s' := by
  intro as
  induction as with
  | nil => intro s h; exact ⟨by simp [run], fun s' e => by simp only [run, Res.ok.injEq] at e; subst e; exact h⟩
  | cons a as ih =>
    intro s h
    obtain ⟨h1, h2⟩ := step_inv s a h
    simp only [run]
    cases hs : step s a with
    | ok s1 => exact ih s1 (h2 s1 hs)
    | no => exact ⟨by simp, by simp⟩
    | crash => exact absurd hs h1

/-- **C119**, with the default write function: in every history of writes, events, connection and a peer that takes data whenever it likes, in level-triggered and in edge-triggered waiting,
output that was accepted and could be sent now is going to be reported as writable: the event is armed, or on its way. Nothing crashes. -/
theorem C119_event_due_partial (mode : Mode) (conn : Bool) (free : Nat) (as : List Act) :
    run (init mode .dflt conn free) as ≠ .crash ∧ ∀ s, run (init mode .dflt conn free) as = .ok s → Sendable s → reports s = true := by
  obtain ⟨h1, h2⟩ := run_inv as _ (inv_init mode conn free)
  refine ⟨h1, fun s e hs => ?_⟩
  have hi := h2 s e
  obtain ⟨hq, hc, hf⟩ := hs
  simp only [reports]
  split
  · simp [hi.level (.inl hq), hc, hf]
  · rcases hi.full hq with h | h | h
    · rw [hc] at h; cases h
    · exact h
    · omega

theorem drain_le (ns : List Nat) : ∀ (s s' : St), s.wf = .dflt → drain s ns = some s' → backlog s' ≤ (ns.map (· + 1)).sum := by
  induction ns with
  | nil => intro s s' _ e; simp only [drain, Option.some.injEq] at e; subst e; simp [backlog]
  | cons n ns ih =>
    intro s s' h1 e
    simp only [drain, h1, reduceCtorEq, if_false, offered, osWrite] at e
    by_cases hf : s.conn = false ∨ s.free = 0
    · simp only [hf, if_true, Option.some.injEq] at e
      subst e; simp [backlog]
    · simp only [hf, if_false] at e
      by_cases hk : min n s.free < n
      · rw [if_pos hk, Option.some.injEq] at e
        subst e; simp [backlog]
      · rw [if_neg hk] at e
        have := ih _ s' rfl e
        simp only [List.map_cons, List.sum_cons]; omega

/-- **C119**: each such event makes progress, so that with a peer that goes on reading everything is sent after finitely many events. -/
theorem C119_progress (mode : Mode) (conn : Bool) (free : Nat) (as : List Act) (s s' : St) (h : run (init mode .dflt conn free) as = .ok s) (hs : Sendable s)
    (he : step s .event = .ok s') : backlog s' < backlog s := by
  have hi := (run_inv as _ (inv_init mode conn free)).2 s h
  have hr := (C119_event_due_partial mode conn free as).2 s h hs
  obtain ⟨hq, hc, hf⟩ := hs
  have key : ∀ s1 : St, s1.wf = .dflt → s1.conn = true → 0 < s1.free → s1.q = s.q → handle s1 = some s' → backlog s' < backlog s := by
    intro s1 e1 e2 e3 e4 e
    simp only [handle, e4] at e
    simp only [backlog]
    cases hh : s.q with
    | nil => exact absurd hh hq
    | cons n ns =>
      rw [hh] at e
      simp only [drain, e1, reduceCtorEq, if_false, offered, osWrite, e2, Bool.true_eq_false, false_or] at e
      rw [if_neg (by omega)] at e
      simp only at e
      by_cases hk : min n s1.free < n
      · rw [if_pos hk, Option.some.injEq] at e
        subst e; simp; omega
      · rw [if_neg hk] at e
        have := drain_le ns _ s' rfl e
        simp only [backlog] at this
        simp only [List.map_cons, List.sum_cons]; omega
  simp only [step, hr, if_true] at he
  cases hm : s.mode with
  | level =>
    simp only [hm] at he
    cases hh : handle { s with mode := .level, armed := false } with
    | none => simp [hh] at he
    | some x => 
      simp only [hh, Res.ok.injEq] at he
      subst he
      exact key { s with mode := .level, armed := false } hi.nn hc hf rfl hh
  | edge =>
    simp only [hm] at he
    cases hh : handle { s with mode := .edge, edge := false } with
    | none => simp [hh] at he
    | some x => 
      simp only [hh, Res.ok.injEq] at he
      subst he
      exact key { s with mode := .edge, edge := false } hi.nn hc hf rfl hh

/-- **C119** fails for a write function that passes on only part of what it gets while there is room: with edge-triggered waiting no further event comes, and the rest of an accepted write stays for ever
(until the caller writes so much more that the socket fills up). -/
theorem C119_chunks_stall : ∃ s, run (init .edge (.chunks 9) false 100) [.write 30, .connected, .event] = .ok s ∧ Sendable s ∧
    ∀ as : List Act, (∀ a ∈ as, (∃ k, a = .taken k) ∨ a = .event ∨ a = .connected) → ∀ s', run s as = .ok s' → s'.q = [20] := by
  refine ⟨⟨.edge, .chunks 9, [20], false, true, true, 90, false, false⟩, by decide +kernel, ⟨by simp, rfl, by decide⟩, ?_⟩
  have key : ∀ (as : List Act) (s : St), s.edge = false → s.want = false → s.conn = true → s.mode = .edge → s.q = [20] →
      (∀ a ∈ as, (∃ k, a = .taken k) ∨ a = .event ∨ a = .connected) → ∀ s', run s as = .ok s' → s'.q = [20] := by
    intro as
    induction as with
    | nil => intro s _ _ _ _ hq _ s' e; simp only [run, Res.ok.injEq] at e; subst e; exact hq
    | cons a as ih =>
      intro s h1 h2 h3 h4 hq ha s' e
      simp only [run] at e
      rcases ha a (List.mem_cons_self ..) with ⟨k, rfl⟩ | rfl | rfl
      · simp only [step] at e
        by_cases hk : k = 0
        · simp [hk] at e
        · rw [if_neg hk] at e
          simp only at e
          exact ih { s with free := s.free + k, edge := s.edge || (s.want && decide (s.wf ≠ .null)), want := false } (by simp [h1, h2]) rfl h3 h4 hq
            (fun a h => ha a (List.mem_cons_of_mem _ h)) s' e
      · have hr : reports s = false := by simp [reports, h4, h1]
        simp [step, hr] at e
      · simp [step, h3] at e
  exact fun as => key as _ rfl rfl rfl rfl rfl

/-- **C119** fails for an fd registered without a write function: with edge-triggered waiting the rest of a short write is never sent, -/
theorem C119_null_stalls : ∃ s, run (init .edge .null true 10) [.write 30, .taken 10] = .ok s ∧ Sendable s ∧ reports s = false :=
  ⟨_, rfl, ⟨by decide, rfl, by decide⟩, rfl⟩

/-- and with level-triggered waiting it makes the queue's thread call a NULL pointer. -/
theorem C119_null_crashes : run (init .level .null true 10) [.write 30, .taken 10, .event] = .crash := by decide +kernel

/-! ## Non-vacuity -/

example : ∃ s, run (init .edge .dflt false 100) [.write 70, .write 0, .write 80, .connected, .event, .taken 5] = .ok s ∧ Sendable s ∧ s.q = [50] := ⟨_, rfl, ⟨by decide, rfl, by decide⟩, rfl⟩
example : ∃ s, run (init .level .dflt true 100) [.write 170, .write 20, .taken 75] = .ok s ∧ Sendable s ∧ s.q = [70, 20] := ⟨_, rfl, ⟨by decide, rfl, by decide⟩, rfl⟩

/-- The bytes of this action that the caller is told are accepted (a write on an empty queue that the OS refuses is reported to the caller, iofd.c:724-735), and those the peer has taken. -/
def acceptedBy (s : St) : Act → Nat
  | .write n => if s.q = [] ∧ s.notReady = false ∧ (s.conn = false ∨ s.free = 0) then 0 else n
  | _ => 0

def takenBy : Act → Nat
  | .taken k => k
  | _ => 0

/-- All bytes accepted in a history. -/
def accepted (s : St) : List Act → Nat
  | [] => 0
  | a :: as => acceptedBy s a + (match step s a with | .ok s' => accepted s' as | _ => 0)

theorem drain_conserved (s s' : St) (l : List Nat) (h : drain s l = some s') : s'.free + l.sum = s.free + s'.q.sum := by
  induction l generalizing s with
  | nil => simp [drain] at h; subst h; simp
  | cons n ns ih =>
    simp only [drain] at h
    split at h
    · simp at h
    · have ho : offered s.wf n ≤ n := by unfold offered; split <;> omega
      by_cases hb : s.conn = false ∨ s.free = 0
      · simp only [osWrite, hb, if_true, Option.some.injEq] at h
        subst h; simp
      · simp only [osWrite, hb, if_false] at h
        split at h
        · simp only [Option.some.injEq] at h
          subst h
          simp only [List.sum_cons]
          omega
        · have := ih _ h
          simp only [List.sum_cons] at this ⊢
          omega

theorem step_conserved (s s' : St) (a : Act) (h : step s a = .ok s') : s'.free + acceptedBy s a + s.q.sum = s.free + takenBy a + s'.q.sum := by
  cases a with
  | write n =>
    simp only [step, Res.ok.injEq] at h
    subst h
    by_cases hq : s.q ≠ [] ∨ s.notReady = true
    · have : ¬ (s.q = [] ∧ s.notReady = false ∧ (s.conn = false ∨ s.free = 0)) := by
        rintro ⟨h1, h2, -⟩; rcases hq with h | h <;> simp_all
      simp [write, hq, acceptedBy, this, takenBy]
      omega
    · have h1 : s.q = [] := by
        by_cases h : s.q = []
        · exact h
        · exact absurd (.inl h) hq
      have h2 : s.notReady = false := by
        cases h : s.notReady
        · rfl
        · exact absurd (.inr h) hq
      by_cases hb : s.conn = false ∨ s.free = 0
      · simp [write, osWrite, h1, h2, hb, acceptedBy, takenBy]
      · have h3 : ¬ (s.q = [] ∧ s.notReady = false ∧ (s.conn = false ∨ s.free = 0)) := fun x => hb x.2.2
        have h4 : acceptedBy s (.write n) = n := by simp only [acceptedBy, h3, if_false]
        rw [h4]
        have hf : s.free ≠ 0 := fun x => hb (.inr x)
        simp only [write, hq, if_false, osWrite, hb, takenBy]
        split
        · simp only [h1, List.sum_nil]; omega
        · split
          · simp only [h1, List.sum_nil, List.sum_cons]; omega
          · simp only [h1, List.sum_nil]; omega
  | event =>
    simp only [step] at h
    split at h
    · split at h
      · rename_i s1 he
        simp only [Res.ok.injEq] at h; subst h
        have := drain_conserved _ _ _ he
        revert this
        cases s.mode <;> simp [acceptedBy, takenBy] <;> omega
      · cases h
    · cases h
  | taken k =>
    simp only [step] at h
    split at h
    · cases h
    · simp only [Res.ok.injEq] at h; subst h; simp [acceptedBy, takenBy]
  | connected =>
    simp only [step] at h
    split at h
    · cases h
    · simp only [Res.ok.injEq] at h; subst h; simp [acceptedBy, takenBy]

/-- **C119**: no byte is lost or sent twice. In every history, with any write function, the room in the socket plus the bytes accepted is the room at the start plus the bytes the peer has taken plus the
bytes still queued: what was accepted is either queued or has been given to the socket, each byte once. -/
theorem C119_conserved (mode : Mode) (wf : WriteF) (conn : Bool) (free : Nat) (as : List Act) (s : St) (h : run (init mode wf conn free) as = .ok s) :
    s.free + accepted (init mode wf conn free) as = free + (as.map takenBy).sum + s.q.sum := by
  have key : ∀ (as : List Act) (s0 : St), run s0 as = .ok s → s.free + accepted s0 as + s0.q.sum = s0.free + (as.map takenBy).sum + s.q.sum := by
    intro as
    induction as with
    | nil => intro s0 h; simp only [run, Res.ok.injEq] at h; subst h; simp [accepted]
    | cons a as ih =>
      intro s0 h
      simp only [run] at h
      split at h
      · rename_i s1 h1
        have := ih s1 h
        have h2 := step_conserved s0 s1 a h1
        simp only [accepted, h1, List.map_cons, List.sum_cons]
        omega
      · cases h
      · cases h
  have := key as _ h
  simpa [init] using this

example : accepted (init .edge .dflt true 50) [.write 70, .write 10, .taken 30, .event] = 80 ∧
    ∃ s, run (init .edge .dflt true 50) [.write 70, .write 10, .taken 30, .event] = .ok s ∧ s.q = [] ∧ s.free = 0 := ⟨by decide +kernel, _, rfl, by decide, by decide⟩

end Verif.Arm
