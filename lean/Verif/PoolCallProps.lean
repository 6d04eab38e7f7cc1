import Verif.PoolCall

/-!
# C230, C231: a call on a pool says what it did
-/

namespace Verif.PoolCall

/-! ## Specification -/

/-- The queues of a pool with what is queued to each. -/
def work (p : Pool) : List (Nat × List Nat) := p.es.map fun e => (e.id, e.fns)

/-- What a caller may conclude from the value of a pool tail call: 0 says that the promise is the last of what is queued to every queue
of the pool, of which there is at least one, and that nothing else changed on those that were there; any other value is -1, the pool is
as before, and the error number says why. -/
def TailTruth (before : Pool) (f : Nat) (after : Pool) : Out → Prop
  | .ret v errno =>
    (v = 0 ∧ after.es ≠ [] ∧ (∀ e ∈ after.es, ∃ l, e.fns = l ++ [f]) ∧
      (work before).length ≤ (work after).length ∧
      ∀ (i : Nat) (id : Nat) (l : List Nat), (work before)[i]? = some (id, l) → (work after)[i]? = some (id, l ++ [f])) ∨
    (v = -1 ∧ after = before ∧ errno ≠ 0)
  | _ => False

/-- What a caller may conclude from the value of a call that queues a function: a handle says that the function is the last of what is
queued to the queue with that handle and that the other queues hold what they held (a new one: nothing); -1 says that the queues hold
what they held, and the error number says why. -/
def QueueTruth (before : Pool) (f : Nat) (after : Pool) : Out → Prop
  | .ret v errno =>
    (∃ (k : Nat) (id : Nat) (l : List Nat), v = id ∧ (work after)[k]? = some (id, l ++ [f]) ∧
        ((work before)[k]? = some (id, l) ∨ (k = before.es.length ∧ l = [])) ∧
        (∀ (j : Nat), j ≠ k → j < before.es.length → (work after)[j]? = (work before)[j]?) ∧
        ∀ (j : Nat), j ≠ k → before.es.length ≤ j → ∀ x, (work after)[j]? = some x → x.2 = []) ∨
    (v = -1 ∧ errno ≠ 0 ∧ (∀ (j : Nat), j < before.es.length → (work after)[j]? = (work before)[j]?) ∧
        ∀ (j : Nat), before.es.length ≤ j → ∀ x, (work after)[j]? = some x → x.2 = [])
  | .waits => work after = work before ∨ ∃ id, work after = work before ++ [(id, [])]
  | .crash => False

/-- The value of a call that allocates a queue: the handle of a queue of the pool, used once more and otherwise untouched, or -1 with
an error number. -/
def AllocTruth (before after : Pool) : Out → Prop
  | .ret v errno =>
    (∃ (k : Nat) (e : Entry), after.es[k]? = some e ∧ v = e.id ∧
        ((∃ e0, before.es[k]? = some e0 ∧ e = { e0 with usage := e0.usage + 1 }) ∨ (k = before.es.length ∧ e.fns = [] ∧ e.usage = 2)) ∧
        ∀ (j : Nat), j ≠ k → after.es[j]? = before.es[j]?) ∨
    (v = -1 ∧ errno ≠ 0 ∧ after = before)
  | _ => False

/-- The answer of the creation of a queue is one that the platform and the init function of the pool gave in order: a failure left an
error number in the range of error numbers. -/
def InOrder : Made → Prop
  | .made _ => True
  | .failed e => 1 ≤ e ∧ e ≤ 4095

/-! ## The claims as a caller would like them -/

/-- C230 in full. -/
def TailTells : Prop := ∀ (p : Pool) (errno : Int) (mem : Bool) (m : Made) (f : Nat),
  TailTruth p f (tailQueue p errno mem m f).1 (tailQueue p errno mem m f).2

/-- C231 in full. -/
def CallsTell : Prop := ∀ (p : Pool) (errno : Int) (m : Made) (f : Nat),
  QueueTruth p f (queue p errno m f).1 (queue p errno m f).2 ∧ AllocTruth p (alloc p errno m).1 (alloc p errno m).2

/-- A new pool whose init function fails without leaving an error number: the tail call answers 0, nothing is queued anywhere. -/
theorem C230_fails : ¬ TailTells ∧
    ∀ (size qmax : Nat) (nb : Bool) (errno : Int) (f : Nat) (e : Int), e ≤ 0 →
      tailQueue ⟨size, qmax, nb, []⟩ errno true (.failed e) f = (⟨size, qmax, nb, []⟩, .ret 0 e) := by
  have h2 : ∀ (size qmax : Nat) (nb : Bool) (errno : Int) (f : Nat) (e : Int), e ≤ 0 →
      tailQueue ⟨size, qmax, nb, []⟩ errno true (.failed e) f = (⟨size, qmax, nb, []⟩, .ret 0 e) := by
    intro size qmax nb errno f e h
    have h' : ¬ (0 < e) := by omega
    simp [tailQueue, h']
  refine ⟨fun h => ?_, h2⟩
  have := h ⟨2, 8, false, []⟩ 0 true (.failed 0) 7
  rw [h2 2 8 false 0 7 0 (by omega)] at this
  simp [TailTruth] at this

/-- The errors other than 1 to 4095 that an init function may leave: 0 makes a failing call leave no error number, others are taken for
the address of a queue. -/
theorem C231_fails : ¬ CallsTell ∧
    ∀ (size qmax : Nat) (nb : Bool) (errno : Int) (f : Nat) (e : Int),
      (e = 0 → queue ⟨size, qmax, nb, []⟩ errno (.failed e) f = (⟨size, qmax, nb, []⟩, .ret (-1) 0) ∧
        alloc ⟨size, qmax, nb, []⟩ errno (.failed e) = (⟨size, qmax, nb, []⟩, .ret (-1) 0)) ∧
      (e < 0 ∨ 4095 < e → queue ⟨size, qmax, nb, []⟩ errno (.failed e) f = (⟨size, qmax, nb, []⟩, .crash) ∧
        alloc ⟨size, qmax, nb, []⟩ errno (.failed e) = (⟨size, qmax, nb, []⟩, .crash)) := by
  have h2 : ∀ (size qmax : Nat) (nb : Bool) (errno : Int) (f : Nat) (e : Int),
      (e = 0 → queue ⟨size, qmax, nb, []⟩ errno (.failed e) f = (⟨size, qmax, nb, []⟩, .ret (-1) 0) ∧
        alloc ⟨size, qmax, nb, []⟩ errno (.failed e) = (⟨size, qmax, nb, []⟩, .ret (-1) 0)) ∧
      (e < 0 ∨ 4095 < e → queue ⟨size, qmax, nb, []⟩ errno (.failed e) f = (⟨size, qmax, nb, []⟩, .crash) ∧
        alloc ⟨size, qmax, nb, []⟩ errno (.failed e) = (⟨size, qmax, nb, []⟩, .crash)) := by
    intro size qmax nb errno f e
    constructor
    · intro h; subst h; simp [queue, alloc, pick, best, errPtr]
    · intro h
      have h0 : e ≠ 0 := by omega
      have h1 : ¬ (1 ≤ e ∧ e ≤ 4095) := by omega
      simp [queue, alloc, pick, best, errPtr, h0, h1]
  refine ⟨fun h => ?_, h2⟩
  have := (h ⟨2, 8, false, []⟩ 0 (.failed 5000) 7).1
  rw [((h2 2 8 false 0 7 5000).2 (by omega)).1] at this
  simp [QueueTruth] at this

/-! ## What holds -/

theorem work_toAll (p : Pool) (f : Nat) : work (toAll p f) = (work p).map fun x => (x.1, x.2 ++ [f]) := by
  simp [work, toAll, List.map_map, Function.comp_def]

/-- C230, provided that there is memory for the counter (or that an error number was there before) and that a failed creation left an
error number. -/
theorem C230_partial (p : Pool) (errno : Int) (mem : Bool) (m : Made) (f : Nat) (hm : mem = true ∨ errno ≠ 0)
    (ho : p.es = [] → InOrder m) :
    TailTruth p f (tailQueue p errno mem m f).1 (tailQueue p errno mem m f).2 := by
  cases mem with
  | false => simp at hm; simp [tailQueue, TailTruth, hm]
  | true =>
    by_cases he : p.es = []
    · cases m with
      | failed e =>
        have := ho he
        simp only [InOrder] at this
        have h : 0 < e := by omega
        have h0 : e ≠ 0 := by omega
        simp [tailQueue, he, h, h0, TailTruth]
      | made id => simp [tailQueue, he, TailTruth, toAll, addNew, work]
    · simp only [tailQueue, he, TailTruth, if_false, Bool.true_eq_false]
      left
      refine ⟨trivial, ?_, ?_, ?_, ?_⟩
      · simpa [toAll] using he
      · intro e h
        simp only [toAll, List.mem_map] at h
        obtain ⟨x, _, rfl⟩ := h
        exact ⟨x.fns, rfl⟩
      · simp [work_toAll]
      · intro i id l h
        simp [work_toAll, h]

/-- Full for a pool that has a queue: with memory for the counter a tail call queues the promise to every queue and answers 0,
whatever errors there are. -/
theorem C230_has_queue (p : Pool) (errno : Int) (m : Made) (f : Nat) (h : p.es ≠ []) :
    (tailQueue p errno true m f).2 = .ret 0 errno ∧ work (tailQueue p errno true m f).1 = (work p).map fun x => (x.1, x.2 ++ [f]) := by
  simp [tailQueue, h, work_toAll]

theorem best_lt (key : Entry → Nat) (l : List Entry) (i : Nat) (h : best key l = some i) : i < l.length := by
  induction l generalizing i with
  | nil => simp [best] at h
  | cons a t ih =>
    simp only [best] at h
    cases hb : best key t with
    | none => simp [hb] at h; subst h; simp
    | some j =>
      have hj := ih j hb
      simp only [hb, List.getElem?_eq_getElem hj] at h
      split at h <;> simp at h <;> subst h <;> simp
      exact hj

theorem best_none (key : Entry → Nat) (l : List Entry) : best key l = none ↔ l = [] := by
  cases l with
  | nil => simp [best]
  | cons a t =>
    simp only [best]
    split
    · simp
    · split
      · simp
      · split <;> simp

/-- The chosen entry is the first of those with the least key. -/
theorem best_least (key : Entry → Nat) (l : List Entry) (i : Nat) (b : Entry) (h : best key l = some i) (hb : l[i]? = some b) :
    (∀ e ∈ l, key b ≤ key e) ∧ ∀ (j : Nat) e, l[j]? = some e → j < i → key b < key e := by
  induction l generalizing i b with
  | nil => simp [best] at h
  | cons a t ih =>
    simp only [best] at h
    cases hr : best key t with
    | none =>
      have := (best_none key t).1 hr
      subst this
      simp [best] at h; subst h
      simp at hb; subst hb
      simp
    | some j =>
      have hj := best_lt key t j hr
      simp only [hr, List.getElem?_eq_getElem hj] at h
      have hx := ih j t[j] hr (by simp [List.getElem?_eq_getElem hj])
      split at h
      · rename_i hlt
        simp at h; subst h
        simp [List.getElem?_eq_getElem hj] at hb
        rw [hb] at hlt hx
        refine ⟨?_, ?_⟩
        · intro e he
          rcases List.mem_cons.1 he with rfl | he
          · omega
          · exact hx.1 e he
        · intro k e hk hlt'
          cases k with
          | zero => simp at hk; subst hk; exact hlt
          | succ k => simp at hk; exact hx.2 k e hk (by omega)
      · rename_i hlt
        simp at h; subst h
        simp at hb; subst hb
        refine ⟨?_, by omega⟩
        intro e he
        rcases List.mem_cons.1 he with rfl | he
        · omega
        · have := hx.1 e he
          omega

/-- What the choice of an entry comes to. -/
theorem pick_cases (key : Entry → Nat) (busy : Entry → Bool) (p : Pool) (m : Made) (ho : p.es = [] → InOrder m) :
    (∃ e, p.es = [] ∧ m = .failed e ∧ 1 ≤ e ∧ e ≤ 4095 ∧ pick key busy p m = (p, .err e)) ∨
    (∃ id, m = .made id ∧ pick key busy p m = (addNew p id, .at p.es.length)) ∨
    (∃ i b, p.es[i]? = some b ∧ (∀ e ∈ p.es, key b ≤ key e) ∧ pick key busy p m = (p, .at i)) := by
  simp only [pick]
  cases hb : best key p.es with
  | none =>
    have he := (best_none key p.es).1 hb
    cases m with
    | made id => right; left; exact ⟨id, rfl, rfl⟩
    | failed e =>
      left
      have := ho he
      simp only [InOrder] at this
      have h0 : e ≠ 0 := by omega
      exact ⟨e, he, rfl, this.1, this.2, by simp [errPtr, h0, this]⟩
  | some i =>
    have hi := best_lt key p.es i hb
    have hg : p.es[i]? = some p.es[i] := List.getElem?_eq_getElem hi
    have hl := (best_least key p.es i p.es[i] hb hg).1
    simp only
    split
    · cases m with
      | made id => right; left; exact ⟨id, rfl, rfl⟩
      | failed e => right; right; exact ⟨i, p.es[i], hg, hl, rfl⟩
    · right; right; exact ⟨i, p.es[i], hg, hl, rfl⟩

/-- C231 for queueing, provided that a failed creation of the first queue left an error number. -/
theorem C231_queue_partial (p : Pool) (errno : Int) (m : Made) (f : Nat) (ho : p.es = [] → InOrder m) :
    QueueTruth p f (queue p errno m f).1 (queue p errno m f).2 := by
  rcases pick_cases (·.fns.length) (fun e => decide (0 < e.fns.length)) p m ho with
    ⟨e, he, -, h1, -, h⟩ | ⟨id, -, h⟩ | ⟨i, b, hb, -, h⟩
  · simp only [queue, h, QueueTruth]
    right
    refine ⟨trivial, by omega, fun j hj => trivial, ?_⟩
    simp [work, he]
  · have hg : (addNew p id).es[p.es.length]? = some { id := id, usage := 1, fns := [] } := by simp [addNew]
    simp only [queue, h, hg]
    split
    · simp only [QueueTruth]
      left
      refine ⟨p.es.length, id, [], rfl, ?_, Or.inr ⟨rfl, rfl⟩, ?_, ?_⟩
      · simp [work, setE, addNew, List.getElem?_modify]
      · intro j hj hlt
        simp [work, setE, addNew, List.getElem?_modify, hlt, Ne.symm hj, List.getElem?_append_left]
      · intro j hj hlt x hx
        have hlen := List.getElem?_eq_some_iff.1 hx |>.1
        simp [work, setE, addNew] at hlen
        omega
    · split
      · simp only [QueueTruth]
        right
        refine ⟨trivial, by omega, ?_, ?_⟩
        · intro j hj; simp [work, addNew, hj, List.getElem?_append_left]
        · intro j hj x hx
          by_cases hjj : j = p.es.length
          · subst hjj; simp [work, addNew] at hx; subst hx; rfl
          · have hlen := List.getElem?_eq_some_iff.1 hx |>.1
            simp [work, addNew] at hlen
            omega
      · right
        exact ⟨id, by simp [work, addNew]⟩
  · have hi := (List.getElem?_eq_some_iff.1 hb).1
    simp only [queue, h, hb]
    split
    · simp only [QueueTruth]
      left
      refine ⟨i, b.id, b.fns, rfl, ?_, Or.inl ?_, ?_, ?_⟩
      · simp [work, setE, List.getElem?_modify, hb]
      · simp [work, hb]
      · intro j hj _
        simp [work, setE, List.getElem?_modify, Ne.symm hj]
      · intro j hj hlt x hx
        have hlen := List.getElem?_eq_some_iff.1 hx |>.1
        simp [work, setE] at hlen
        omega
    · split
      · simp only [QueueTruth]
        right
        refine ⟨trivial, by omega, fun j hj => trivial, ?_⟩
        intro j hj x hx
        have hlen := List.getElem?_eq_some_iff.1 hx |>.1
        simp [work] at hlen
        omega
      · left; rfl

/-- C231 for allocating, provided that a failed creation of the first queue left an error number. -/
theorem C231_alloc_partial (p : Pool) (errno : Int) (m : Made) (ho : p.es = [] → InOrder m) :
    AllocTruth p (alloc p errno m).1 (alloc p errno m).2 := by
  rcases pick_cases (·.usage) (fun e => decide (1 < e.usage)) p m ho with
    ⟨e, he, -, h1, -, h⟩ | ⟨id, -, h⟩ | ⟨i, b, hb, -, h⟩
  · simp only [alloc, h, AllocTruth]
    right
    exact ⟨trivial, by omega, trivial⟩
  · have hg : (addNew p id).es[p.es.length]? = some { id := id, usage := 1, fns := [] } := by simp [addNew]
    simp only [alloc, h, hg, AllocTruth]
    left
    refine ⟨p.es.length, { id := id, usage := 2, fns := [] }, ?_, rfl, Or.inr ⟨rfl, rfl, rfl⟩, ?_⟩
    · simp [setE, addNew, List.getElem?_modify]
    · intro j hj
      by_cases hlt : j < p.es.length
      · simp [setE, addNew, List.getElem?_modify, hlt, Ne.symm hj, List.getElem?_append_left]
      · have h1 : p.es.length ≤ j := by omega
        have h2 : p.es.length + 1 ≤ j := by omega
        simp [setE, addNew, List.getElem?_eq_none, h1, h2]
  · simp only [alloc, h, hb, AllocTruth]
    left
    refine ⟨i, { b with usage := b.usage + 1 }, ?_, rfl, Or.inl ⟨b, hb, rfl⟩, ?_⟩
    · simp [setE, List.getElem?_modify, hb]
    · intro j hj
      simp [setE, List.getElem?_modify, Ne.symm hj]

/-- A function goes to a queue that has the fewest functions queued, unless all queues are busy and there is room for one more; then
the pool makes one if it can. -/
theorem C231_choice (p : Pool) (errno : Int) (m : Made) (f : Nat) (v : Int) (en : Int) (ho : p.es = [] → InOrder m)
    (hv : (queue p errno m f).2 = .ret v en) (hok : v ≠ -1) :
    (∃ (i : Nat) (b : Entry), p.es[i]? = some b ∧ v = b.id ∧ (∀ e ∈ p.es, b.fns.length ≤ e.fns.length)) ∨
    (∃ id, m = .made id ∧ v = id ∧ ((queue p errno m f).1.es = p.es ++ [{ id := id, usage := 1, fns := [f] }])) := by
  rcases pick_cases (·.fns.length) (fun e => decide (0 < e.fns.length)) p m ho with
    ⟨e, he, -, h1, -, h⟩ | ⟨id, hm, h⟩ | ⟨i, b, hb, hl, h⟩
  · simp [queue, h] at hv; omega
  · right
    have hg : (addNew p id).es[p.es.length]? = some { id := id, usage := 1, fns := [] } := by simp [addNew]
    simp only [queue, h, hg] at hv ⊢
    split at hv
    · rename_i hr
      simp only [hr, if_true]
      refine ⟨id, hm, ?_, ?_⟩
      · simp at hv; exact hv.1.symm
      · simp only [setE, addNew]
        apply List.ext_getElem?
        intro j
        rw [List.getElem?_modify]
        by_cases hj : p.es.length = j
        · subst hj; simp
        · by_cases hlt : j < p.es.length
          · simp [hj, List.getElem?_append_left hlt]
          · have h2 : p.es.length + 1 ≤ j := by omega
            simp [hj, List.getElem?_eq_none, h2]
    · split at hv
      · simp at hv; omega
      · simp at hv
  · left
    simp only [queue, h, hb] at hv
    split at hv
    · simp at hv
      exact ⟨i, b, hb, hv.1.symm, hl⟩
    · split at hv
      · simp at hv; omega
      · simp at hv

/-- As long as some queue of the pool has room for another function besides the caller's own count, the call succeeds, whatever happens
when the pool tries to grow. -/
theorem C231_room (p : Pool) (errno : Int) (m : Made) (f : Nat) (h : ∃ e ∈ p.es, e.fns.length + 1 < p.qmax) :
    ∃ id : Nat, (queue p errno m f).2 = .ret id errno := by
  obtain ⟨e, he, hr⟩ := h
  have hne : p.es ≠ [] := List.ne_nil_of_mem he
  rcases pick_cases (·.fns.length) (fun e => decide (0 < e.fns.length)) p m (fun h => absurd h hne) with
    ⟨_, h, -⟩ | ⟨id, -, h⟩ | ⟨i, b, hb, hl, h⟩
  · exact absurd h hne
  · have hg : (addNew p id).es[p.es.length]? = some { id := id, usage := 1, fns := [] } := by simp [addNew]
    have hq : 1 < p.qmax := by omega
    have hq2 : (addNew p id).qmax = p.qmax := rfl
    exact ⟨id, by simp [queue, h, hg, hq2, hq]⟩
  · have := hl e he
    have hq : b.fns.length + 1 < p.qmax := by omega
    exact ⟨b.id, by simp only [queue, h, hb, hq, if_true]⟩

/-- And when every queue is full to that point and the table too, the call queues nothing: it says EAGAIN or waits, as the pool was
made. -/
theorem C231_full (p : Pool) (errno : Int) (m : Made) (f : Nat) (hne : p.es ≠ []) (h : ∀ e ∈ p.es, p.qmax ≤ e.fns.length + 1)
    (hs : p.size ≤ p.es.length) : queue p errno m f = (p, if p.nonblock then .ret (-1) 1011 else .waits) := by
  simp only [queue, pick]
  cases hb : best (·.fns.length) p.es with
  | none => exact absurd ((best_none _ p.es).1 hb) hne
  | some i =>
    have hi := best_lt _ p.es i hb
    have hg : p.es[i]? = some p.es[i] := List.getElem?_eq_getElem hi
    have h1 : ¬ (p.es.length < p.size) := by omega
    have h2 : ¬ (p.es[i].fns.length + 1 < p.qmax) := by have := h _ (List.getElem_mem hi); omega
    simp only [h1, and_false, if_false, hg, h2]
    cases p.nonblock <;> simp

/-- A queue is made exactly when there is none, or when every queue has something to do and the table has room. -/
theorem C231_grows (p : Pool) (errno : Int) (id f : Nat) :
    (queue p errno (.made id) f).1.es.length = p.es.length + 1 ↔
      p.es = [] ∨ ((∀ e ∈ p.es, e.fns ≠ []) ∧ p.es.length < p.size) := by
  simp only [queue, pick]
  cases hb : best (·.fns.length) p.es with
  | none =>
    have he := (best_none _ p.es).1 hb
    simp only [he, addNew, List.length_nil, List.nil_append, List.getElem?_cons_zero, true_or, iff_true]
    split
    · simp [setE]
    · split <;> simp
  | some i =>
    have hi := best_lt _ p.es i hb
    have hg : p.es[i]? = some p.es[i] := List.getElem?_eq_getElem hi
    have hl := (best_least _ p.es i p.es[i] hb hg).1
    have hne : p.es ≠ [] := by intro h; rw [h] at hi; simp at hi
    have hall : (∀ e ∈ p.es, e.fns ≠ []) ↔ 0 < p.es[i].fns.length := by
      constructor
      · intro h; have := h _ (List.getElem_mem hi); exact List.length_pos_iff.2 this
      · intro h e he; have := hl e he; exact List.length_pos_iff.1 (by omega)
    simp only [hg, Option.map_some, Option.getD_some, decide_eq_true_eq, hall, hne, false_or]
    by_cases hc : 0 < p.es[i].fns.length ∧ p.es.length < p.size
    · have hg' : (addNew p id).es[p.es.length]? = some { id := id, usage := 1, fns := [] } := by simp [addNew]
      simp only [hc, and_self, if_true, hg', iff_true]
      split
      · simp [setE, addNew]
      · split <;> simp [addNew]
    · simp only [hc, if_false, hg, iff_false]
      split
      · simp [setE]
      · split <;> simp

/-! ## Cases that meet the hypotheses -/

example : tailQueue ⟨2, 8, false, [⟨10, 1, [1]⟩, ⟨11, 1, []⟩]⟩ 0 true (.failed 0) 7 =
    (⟨2, 8, false, [⟨10, 1, [1, 7]⟩, ⟨11, 1, [7]⟩]⟩, .ret 0 0) := by decide

example : tailQueue ⟨2, 8, false, []⟩ 0 true (.failed 1012) 7 = (⟨2, 8, false, []⟩, .ret (-1) 1012) := by decide

example : tailQueue ⟨2, 8, false, []⟩ 0 true (.made 4) 7 = (⟨2, 8, false, [⟨4, 1, [7]⟩]⟩, .ret 0 0) := by decide

example : queue ⟨2, 8, false, [⟨10, 1, [1]⟩]⟩ 0 (.made 11) 7 =
    (⟨2, 8, false, [⟨10, 1, [1]⟩, ⟨11, 1, [7]⟩]⟩, .ret 11 0) := by decide

example : queue ⟨2, 8, false, [⟨10, 1, [1, 2]⟩, ⟨11, 1, [3]⟩]⟩ 0 (.made 12) 7 =
    (⟨2, 8, false, [⟨10, 1, [1, 2]⟩, ⟨11, 1, [3, 7]⟩]⟩, .ret 11 0) := by decide

example : queue ⟨1, 2, true, [⟨10, 1, [1]⟩]⟩ 0 (.made 12) 7 = (⟨1, 2, true, [⟨10, 1, [1]⟩]⟩, .ret (-1) 1011) := by decide

example : alloc ⟨2, 8, false, [⟨10, 2, [1]⟩]⟩ 0 (.made 11) =
    (⟨2, 8, false, [⟨10, 2, [1]⟩, ⟨11, 2, []⟩]⟩, .ret 11 0) := by decide

example : alloc ⟨2, 8, false, [⟨10, 1, [1]⟩]⟩ 0 (.made 11) = (⟨2, 8, false, [⟨10, 2, [1]⟩]⟩, .ret 10 0) := by decide

example : alloc ⟨2, 8, false, [⟨10, 2, [1]⟩]⟩ 0 (.failed 0) = (⟨2, 8, false, [⟨10, 3, [1]⟩]⟩, .ret 10 0) := by decide

end Verif.PoolCall
