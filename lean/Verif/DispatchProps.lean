import Verif.Dispatch
/-! # C120: an event reaches the registration it is for -/

namespace Verif.Dispatch

/-- No number that occurs in the batch is registered anew while the batch is dispatched. -/
def NoReuse (mid : Nat → List Op) (es : List Ev) : Prop := ∀ i, ∀ op ∈ mid i, ∀ fd q, op = .add fd q → ∀ e ∈ es, e.fd ≠ fd

/-- The events not yet dispatched are for the registration now in the table, or that one is gone. -/
def Cur (q : Nat) (w : World) (es : List Ev) : Prop := ∀ e ∈ es, w.tab e.fd = some ⟨e.id, q⟩ ∨ w.tab e.fd = none

theorem cur_op (q : Nat) (w : World) (es : List Ev) (op : Op) (h : Cur q w es) (hn : ∀ fd q', op = .add fd q' → ∀ e ∈ es, e.fd ≠ fd) : Cur q (w.op op) es := by
  intro e he
  cases op with
  | close fd =>
    simp only [World.op]
    by_cases hf : e.fd = fd
    · right; simp [hf]
    · rw [if_neg hf]; exact h e he
  | add fd q' =>
    have hne := hn fd q' rfl e he
    simp only [World.op]
    cases ht : w.tab fd with
    | some r => exact h e he
    | none => simp only; rw [if_neg hne]; exact h e he

theorem cur_ops (q : Nat) (es : List Ev) : ∀ (ops : List Op) (w : World), Cur q w es → (∀ op ∈ ops, ∀ fd q', op = .add fd q' → ∀ e ∈ es, e.fd ≠ fd) →
    Cur q (ops.foldl World.op w) es := by
  intro ops
  induction ops with
  | nil => intro w h _; exact h
  | cons op ops ih =>
    intro w h hn
    exact ih _ (cur_op q w es op h (hn op (List.mem_cons_self ..))) (fun o ho => hn o (List.mem_cons_of_mem _ ho))

theorem dispatch_right (q : Nat) (mid : Nat → List Op) : ∀ (es : List Ev) (i : Nat) (w : World), NoReuse mid es → Cur q w es →
    ∀ x ∈ (dispatch q mid i w es).2, Right q x := by
  intro es
  induction es with
  | nil => intro i w _ _ x hx; cases hx
  | cons e es ih =>
    intro i w hn hc x hx
    have hc1 := cur_ops q (e :: es) (mid i) w hc (fun op ho fd q' hop => hn i op ho fd q' hop)
    simp only [dispatch, List.mem_append] at hx
    generalize (mid i).foldl World.op w = w1 at hc1 hx
    have hn' : NoReuse mid es := fun j op ho fd q' hop e' he' => hn j op ho fd q' hop e' (List.mem_cons_of_mem _ he')
    have hstep : (∀ y ∈ (one q w1 e).2, Right q y) ∧ Cur q (one q w1 e).1 es := by
      rcases hc1 e (List.mem_cons_self ..) with h | h
      · simp only [one, h]
        cases hk : e.kind with
        | io =>
          refine ⟨fun y hy => ?_, fun e' he' => hc1 e' (List.mem_cons_of_mem _ he')⟩
          simp only [List.mem_singleton] at hy; subst hy; exact ⟨rfl, rfl⟩
        | bad =>
          simp only [if_true]
          refine ⟨fun y hy => ?_, fun e' he' => ?_⟩
          · simp only [List.mem_cons, List.not_mem_nil, or_false] at hy
            rcases hy with rfl | rfl <;> exact ⟨rfl, rfl⟩
          · by_cases hf : e'.fd = e.fd
            · right; simp [hf]
            · simp only [if_neg hf]; exact hc1 e' (List.mem_cons_of_mem _ he')
      · simp only [one, h]
        exact ⟨by simp, fun e' he' => hc1 e' (List.mem_cons_of_mem _ he')⟩
    rcases hx with hx | hx
    · exact hstep.1 x hx
    · exact ih (i + 1) _ hn' hstep.2 x hx

/-- **C120**, if no number of the batch is registered anew while the batch is being dispatched: whatever else is closed and registered meanwhile, callbacks run only for the
registration the event was reported for, on the thread of its own queue; events of registrations closed meanwhile are dropped. -/
theorem C120_right_partial (q : Nat) (w : World) (es : List Ev) (mid : Nat → List Op) (hw : FromWait q w es) (hn : NoReuse mid es) :
    ∀ x ∈ (dispatch q mid 0 w es).2, Right q x :=
  dispatch_right q mid es 0 w hn (fun e he => .inl (hw e he))

/-- **C120**, nothing is lost either: with nothing closed or registered meanwhile, every event runs the callbacks of its registration, in the order reported. -/
theorem C120_all (q : Nat) (w : World) (es : List Ev) (hw : FromWait q w es) (hk : ∀ e ∈ es, e.kind = .io) :
    dispatch q (fun _ => []) 0 w es = (w, es.map fun e => .call e ⟨e.id, q⟩) := by
  have key : ∀ (es : List Ev) (i : Nat), FromWait q w es → (∀ e ∈ es, e.kind = .io) → dispatch q (fun _ => []) i w es = (w, es.map fun e => .call e ⟨e.id, q⟩) := by
    intro es
    induction es with
    | nil => intro i _ _; rfl
    | cons e es ih =>
      intro i hw hk
      simp only [dispatch, List.foldl_nil, one, hw e (List.mem_cons_self ..), hk e (List.mem_cons_self ..)]
      rw [ih (i + 1) (fun e' he' => hw e' (List.mem_cons_of_mem _ he')) (fun e' he' => hk e' (List.mem_cons_of_mem _ he'))]
      simp
  exact key es 0 hw hk

/-- The world of the examples: two fds of queue 1. -/
def w0 : World := ⟨fun n => if n = 5 then some ⟨0, 1⟩ else if n = 6 then some ⟨1, 1⟩ else none, 2⟩

/-- **C120** fails with a reused number: the callback for fd 5 closes fd 6 and a new connection of queue 2 gets the number; the event of the old fd 6 makes queue 1's thread run the callbacks of
the new registration, while queue 2's thread may be running them, too. -/
theorem C120_wrong_thread : ∃ (mid : Nat → List Op) (e : Ev) (r : Reg), FromWait 1 w0 [⟨5, .io, 0⟩, ⟨6, .io, 1⟩] ∧ w0.Ok ∧
    Eff.call e r ∈ (dispatch 1 mid 0 w0 [⟨5, .io, 0⟩, ⟨6, .io, 1⟩]).2 ∧ r.q = 2 ∧ r.id ≠ e.id := by
  refine ⟨fun i => if i = 1 then [.close 6, .add 6 2] else [], ⟨6, .io, 1⟩, ⟨2, 2⟩, ?_, ?_, by decide, rfl, by decide⟩
  · intro e he; simp only [List.mem_cons, List.not_mem_nil, or_false] at he; rcases he with rfl | rfl <;> rfl
  · intro fd r h
    simp only [w0] at h
    split at h
    · cases h; decide
    · split at h
      · cases h; decide
      · cases h

/-- **C120** fails with a reused number: a hang-up of the old connection closes the new one. -/
theorem C120_wrong_close : ∃ (mid : Nat → List Op) (e : Ev) (r : Reg), FromWait 1 w0 [⟨5, .io, 0⟩, ⟨6, .bad, 1⟩] ∧
    Eff.closed e r ∈ (dispatch 1 mid 0 w0 [⟨5, .io, 0⟩, ⟨6, .bad, 1⟩]).2 ∧ r.id ≠ e.id := by
  refine ⟨fun i => if i = 1 then [.close 6, .add 6 1] else [], ⟨6, .bad, 1⟩, ⟨2, 1⟩, ?_, by decide, by decide⟩
  intro e he; simp only [List.mem_cons, List.not_mem_nil, or_false] at he; rcases he with rfl | rfl <;> rfl

/-! ## Non-vacuity -/

example : FromWait 1 w0 [⟨5, .io, 0⟩, ⟨6, .bad, 1⟩] ∧ NoReuse (fun i => if i = 1 then [.close 6, .add 7 2] else []) [⟨5, .io, 0⟩, ⟨6, .bad, 1⟩] := by
  refine ⟨fun e he => ?_, fun i op ho fd q hop e he => ?_⟩
  · simp only [List.mem_cons, List.not_mem_nil, or_false] at he; rcases he with rfl | rfl <;> rfl
  · simp only at ho
    split at ho
    · simp only [List.mem_cons, List.not_mem_nil, or_false] at ho he
      rcases ho with rfl | rfl
      · cases hop
      · cases hop; rcases he with rfl | rfl <;> decide
    · cases ho

example : (dispatch 1 (fun i => if i = 1 then [.close 6, .add 7 2] else []) 0 w0 [⟨5, .io, 0⟩, ⟨6, .bad, 1⟩]).2 = [.call ⟨5, .io, 0⟩ ⟨0, 1⟩] := by decide

end Verif.Dispatch
