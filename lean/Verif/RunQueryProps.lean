import Verif.RunQuery
/-! Properties C160 (a function can ask about itself) and C161 (measured times). -/
namespace Verif.RunQuery

/-! ## Specification of C160

The answer depends on the invocations that are going on, innermost first: arguments, data and completion queue are those of the
innermost one, an object is running if any of them was invoked with it. -/
namespace Spec

def arg (st : List Frame) (n : Nat) : Ans :=
  match st with
  | [] => .eperm
  | f :: _ => match f.pay with
    | .args l => if h : n < l.length then .val l[n] else .enoent
    | .data _ => .einval

def data (st : List Frame) : Ans :=
  match st with
  | [] => .eperm
  | f :: _ => match f.pay with
    | .args _ => .einval
    | .data b => .bytes b.length b

def done (st : List Frame) : Option Nat :=
  match st with
  | [] => none
  | f :: _ => f.done

def running (st : List Frame) : Robj → Bool
  | .obj o => decide (∃ f ∈ st, f.robj = .obj o)
  | _ => false

mutual
/-- the answers a function gets, in order -/
def act (st : List Frame) : Act → List Ans
  | .arg n => [arg st n]
  | .data => [data st]
  | .done => [.qid (done st)]
  | .ref o => [.yes (running st o)]
  | .invoke f body => acts (f :: st) body
def acts (st : List Frame) : List Act → List Ans
  | [] => []
  | a :: as => act st a ++ acts st as
end

end Spec

/- every invocation passes the limits of C46 (64 arguments, 8192 bytes) and has a pointer to its arguments if `nn` -/
mutual
def okAct (nn : Bool) : Act → Prop
  | .invoke f body => (match f.pay with | .args l => l.length ≤ 64 | .data b => b.length ≤ 8192) ∧
      (if nn then f.nul = false else f.ok) ∧ okActs nn body
  | _ => True
def okActs (nn : Bool) : List Act → Prop
  | [] => True
  | a :: as => okAct nn a ∧ okActs nn as
end

/-! ## Words -/

theorem word_data (n : Nat) (h : n < 2 ^ 31) : n ||| dataFlag = dataFlag + n := by
  have := Nat.two_pow_add_eq_or_of_lt (i := 31) (b := n) h 1
  simp only [Nat.mul_one] at this
  rw [Nat.or_comm]; exact this.symm

theorem flag_data (n : Nat) (h : n < 2 ^ 31) : (n ||| dataFlag) &&& dataFlag ≠ 0 := by
  intro h0
  have := congrArg (fun x => Nat.testBit x 31) h0
  have hb : Nat.testBit dataFlag 31 = true := by decide
  simp [Nat.testBit_or, Nat.testBit_and, hb] at this

theorem flag_args (n : Nat) (h : n < 2 ^ 31) : n &&& dataFlag = 0 := by
  have h1 : n &&& dataFlag = n &&& 2 ^ 31 := rfl
  rw [h1]
  apply Nat.eq_of_testBit_eq
  intro i
  rw [Nat.testBit_and, Nat.testBit_two_pow, Nat.zero_testBit]
  by_cases hi : 31 = i
  · subst hi
    simp [Nat.testBit_lt_two_pow h]
  · simp [hi]

theorem len_data (n : Nat) (h : n < 2 ^ 31) : (n ||| dataFlag) &&& 0x7fffffff = n := by
  rw [word_data n h]
  have : (0x7fffffff : Nat) = 2 ^ 31 - 1 := rfl
  rw [this, Nat.and_two_pow_sub_one_eq_mod]
  simp only [dataFlag]; omega

/-- the fields of the queue while the invocations `st` are going on -/
def field (st : List Frame) : Q :=
  match st with
  | [] => Q.init
  | f :: _ => ⟨f.done, st.map (·.robj), word f.pay, if f.nul then none else some f.pay⟩

theorem refs_field (st : List Frame) : (field st).refs = st.map (·.robj) := by cases st <;> rfl

/-- the innermost invocation is within the limits -/
def Top (nn : Bool) : List Frame → Prop
  | [] => True
  | f :: _ => (match f.pay with | .args l => l.length ≤ 64 | .data b => b.length ≤ 8192) ∧ (if nn then f.nul = false else f.ok)

theorem arg_field (st : List Frame) (h : Top true st) (n : Nat) : qArg (field st) n = Spec.arg st n := by
  cases st with
  | nil => rfl
  | cons f st =>
    obtain ⟨d, o, p, nul⟩ := f
    obtain ⟨h1, h2⟩ := h
    have h2 : nul = false := h2
    subst h2
    cases p with
    | args l =>
      have h1 : l.length ≤ 64 := h1
      have hf := flag_args l.length (by omega)
      by_cases hn : n < l.length
      · simp [qArg, field, Spec.arg, word, hf, hn, Nat.not_le.2 hn]
      · simp [qArg, field, Spec.arg, word, hf, hn, Nat.not_lt.1 hn]
    | data b =>
      have h1 : b.length ≤ 8192 := h1
      have hf := flag_data b.length (by omega)
      simp [qArg, field, Spec.arg, word, hf]

theorem data_field (st : List Frame) (h : Top true st) : qData (field st) = Spec.data st := by
  cases st with
  | nil => rfl
  | cons f st =>
    obtain ⟨d, o, p, nul⟩ := f
    obtain ⟨h1, h2⟩ := h
    have h2 : nul = false := h2
    subst h2
    cases p with
    | args l =>
      have h1 : l.length ≤ 64 := h1
      have hf := flag_args l.length (by omega)
      simp [qData, field, Spec.data, word, hf]
    | data b =>
      have h1 : b.length ≤ 8192 := h1
      have hf := flag_data b.length (by omega)
      have hl := len_data b.length (by omega)
      simp [qData, field, Spec.data, word, hf, hl]

theorem ref_field (st : List Frame) (o : Robj) : qRef (field st) o = .yes (Spec.running st o) := by
  cases o with
  | null => rfl
  | freeOnly => rfl
  | obj o =>
    simp only [qRef, refs_field, Spec.running, Ans.yes.injEq]
    rw [Bool.eq_iff_iff]
    simp [List.any_eq_true]

theorem done_field (st : List Frame) : (field st).done = Spec.done st := by cases st <;> rfl

theorem push_field (f : Frame) (st : List Frame) :
    (⟨f.done, f.robj :: (field st).refs, word f.pay, if f.nul then none else some f.pay⟩ : Q) = field (f :: st) := by
  cases st <;> rfl

mutual
theorem act_ok (a : Act) (st : List Frame) (h : okAct true a) (ht : Top true st) : runAct (field st) a = (field st, Spec.act st a) := by
  cases a with
  | arg n => simp only [runAct, Spec.act, arg_field st ht n]
  | data => simp only [runAct, Spec.act, data_field st ht]
  | done => simp only [runAct, Spec.act, done_field st]
  | ref o => simp only [runAct, Spec.act, ref_field st o]
  | invoke f body =>
    obtain ⟨h1, h2, h3⟩ := h
    simp only [runAct, Spec.act, push_field]
    rw [acts_ok body (f :: st) h3 ⟨h1, h2⟩]
theorem acts_ok (as : List Act) (st : List Frame) (h : okActs true as) (ht : Top true st) :
    runActs (field st) as = (field st, Spec.acts st as) := by
  cases as with
  | nil => rfl
  | cons a as =>
    obtain ⟨h1, h2⟩ := h
    simp only [runActs, Spec.acts]
    rw [act_ok a st h1 ht]
    simp only
    rw [acts_ok as st h2 ht]
end

/-! ## C160 -/

/-- C160 (what holds). For every nesting of invocations, of any depth, in which every invocation has a pointer to its arguments: every question
    is answered for the innermost function going on (outside of any function: EPERM, no completion queue, no object), with
    exactly its arguments, its data and its completion queue; an object is reported running exactly if one of the functions going on was
    invoked with it; and when a function has returned, the answers are again those of the function around it.
    Missing: synchronous calls without arguments or data, for which it is false (`C160_null_args`, `C160_null_data`). -/
theorem C160_answers_partial (as : List Act) (h : okActs true as) : runActs Q.init as = (Q.init, Spec.acts [] as) :=
  acts_ok as [] h trivial

/-- C160, also with NULL pointers: the completion queue and the running objects are right in every nesting, and everything is restored. -/
theorem C160_restored (as : List Act) (s : Q) : (runActs s as).1 = s := by
  induction as generalizing s with
  | nil => rfl
  | cons a as ih =>
    simp only [runActs]
    have : (runAct s a).1 = s := by cases a <;> simp [runAct]
    rw [this]; exact ih s

/-- C160 is false of the code for a function called synchronously without arguments: though it is running, it is told that no function is (EPERM
    instead of ENOENT). -/
theorem C160_null_args (f : Frame) (st : List Frame) (hn : f.nul = true) (hp : f.pay = .args []) (n : Nat) :
    runActs (field st) [.invoke f [.arg n]] = (field st, [.eperm]) ∧ Spec.acts st [.invoke f [.arg n]] = [.enoent] := by
  constructor
  · simp only [runActs, runAct, List.append_nil]
    simp [qArg, hn]
  · simp [Spec.acts, Spec.act, Spec.arg, hp]

/-- C160 is false of the code for a function called synchronously with no data (length 0, NULL): it is refused its data. -/
theorem C160_null_data (f : Frame) (st : List Frame) (hn : f.nul = true) (hp : f.pay = .data []) :
    runActs (field st) [.invoke f [.data]] = (field st, [.eperm]) ∧ Spec.acts st [.invoke f [.data]] = [.bytes 0 []] := by
  constructor
  · simp only [runActs, runAct, List.append_nil]
    simp [qData, hn]
  · simp [Spec.acts, Spec.act, Spec.data, hp]

/-- a function with two arguments calls another one with data, which calls a third one; then it asks again -/
example :
    let inner : Act := .invoke ⟨none, .freeOnly, .args [9], false⟩ [.arg 0, .data, .ref (.obj 5), .done]
    let mid : Act := .invoke ⟨none, .obj 6, .data [1, 2, 3], false⟩ [.data, .arg 0, inner, .ref (.obj 6), .ref (.obj 5)]
    let as : List Act := [.arg 0, .invoke ⟨some 3, .obj 5, .args [7, 8], false⟩ [.arg 1, mid, .arg 0, .arg 2, .done, .ref (.obj 6)], .ref (.obj 5)]
    okActs true as ∧ Spec.acts [] as = [.eperm, .val 8, .bytes 3 [1, 2, 3], .einval, .val 9, .einval, .yes true, .qid none, .yes true, .yes true,
      .val 7, .enoent, .qid (some 3), .yes false, .yes false] := by
  refine ⟨by simp [okActs, okAct], ?_⟩
  decide +kernel

/-! ## C161 -/

theorem sub64_of_le {a b : Nat} (h : b ≤ a) (ha : a < 2 ^ 64) : sub64 a b = a - b := by
  unfold sub64; rw [Nat.mod_eq_of_lt (a := b) (by omega)]; omega

/-- the waits of a queue, as intervals of real time in microseconds, one after the other -/
def Ordered : Nat → List (Nat × Nat) → Prop
  | _, [] => True
  | t0, (t, t') :: ws => t0 ≤ t ∧ t ≤ t' ∧ t' < 2 ^ 64 ∧ Ordered t' ws

def runWaits (us : Nat → Nat) (c : Costs) (ws : List (Nat × Nat)) : Costs := ws.foldl (fun c w => c.wait us w.1 w.2) c

/-- end of the last wait but one (or the creation) -/
def prevWake (t0 : Nat) (ws : List (Nat × Nat)) : Nat := (ws.getLast?.map (·.2)).getD t0

theorem runWaits_wake (ws : List (Nat × Nat)) (t0 : Nat) (c : Costs) (hc : c.wakeTs = t0) :
    (runWaits id c ws).wakeTs = prevWake t0 ws := by
  induction ws generalizing t0 c with
  | nil => exact hc
  | cons w ws ih =>
    obtain ⟨t, t'⟩ := w
    show (runWaits id (c.wait id t t') ws).wakeTs = _
    rw [ih t' _ rfl]
    cases ws with
    | nil => rfl
    | cons x xs => simp [prevWake, List.getLast?_cons_cons]; rfl

/-- C161 (the logic, with a clock that works). If aosl_tick_us were a microsecond clock, aosl_mpq_last_costs would after every
    number of waits report exactly the time of the last wait and the time between it and the one before (or the creation of the queue); and
    the performance callback would be told the exact execution time and a waiting time at most 999 microseconds too long, for all times below
    71 minutes.
    Missing: aosl_tick_us is no such clock (`C161_costs_zero`, `C161_perf_wrong`). -/
theorem C161_logic_partial :
    (∀ t0 ws t t', Ordered t0 (ws ++ [(t, t')]) →
      let c := runWaits id (Costs.init id t0) (ws ++ [(t, t')])
      c.idle = t' - t ∧ c.load = t - prevWake t0 ws) ∧
    (∀ tq t t', tq ≤ t → t ≤ t' → t' < 2 ^ 64 → t - tq < 2 ^ 32 - 1000 → t' - t < 2 ^ 32 →
      let r := perf id (tq / 1000) t t'
      t - tq ≤ r.1 ∧ r.1 ≤ t - tq + 999 ∧ r.2 = t' - t) := by
  constructor
  · intro t0 ws t t' ho
    have hl : prevWake t0 ws ≤ t ∧ t ≤ t' ∧ t' < 2 ^ 64 := by
      induction ws generalizing t0 with
      | nil => exact ⟨ho.1, ho.2.1, ho.2.2.1⟩
      | cons w ws ih =>
        obtain ⟨a, b⟩ := w
        have := ih b ho.2.2.2
        cases ws with
        | nil => exact this
        | cons x xs =>
          have he : prevWake t0 ((a, b) :: x :: xs) = prevWake b (x :: xs) := by
            simp [prevWake, List.getLast?_cons_cons, List.getLast?_cons]
          rw [he]; exact this
    have hw : (runWaits id (Costs.init id t0) ws).wakeTs = prevWake t0 ws := runWaits_wake ws t0 _ rfl
    have he : runWaits id (Costs.init id t0) (ws ++ [(t, t')]) = (runWaits id (Costs.init id t0) ws).wait id t t' := by
      simp [runWaits, List.foldl_append]
    rw [he]
    generalize runWaits id (Costs.init id t0) ws = c at hw
    simp only [Costs.wait, hw, id]
    exact ⟨sub64_of_le hl.2.1 hl.2.2, sub64_of_le hl.1 (by omega)⟩
  · intro tq t t' h1 h2 h3 h4 h5
    simp only [perf, id]
    rw [sub64_of_le (by omega) (by omega), sub64_of_le h2 h3, Nat.mod_eq_of_lt (by omega), Nat.mod_eq_of_lt h5]
    refine ⟨by omega, by omega, rfl⟩

/-- two waits: created at 100, waits from 150 to 400 and from 430 to 1000 -/
example : Ordered 100 ([(150, 400)] ++ [(430, 1000)]) ∧
    (runWaits id (Costs.init id 100) [(150, 400), (430, 1000)]).idle = 570 ∧ (runWaits id (Costs.init id 100) [(150, 400), (430, 1000)]).load = 30 := by
  refine ⟨?_, by decide +kernel, by decide +kernel⟩
  simp [Ordered]

/-- C161 is false of the code: whatever the queue did, and for however long, the costs reported are 0. -/
theorem C161_costs_zero (t0 : Nat) (ws : List (Nat × Nat)) :
    (runWaits codeUs (Costs.init codeUs t0) ws).load = 0 ∧ (runWaits codeUs (Costs.init codeUs t0) ws).idle = 0 := by
  have h : ∀ (ws : List (Nat × Nat)) (c : Costs), c = ⟨0, 0, 0, 0⟩ → runWaits codeUs c ws = ⟨0, 0, 0, 0⟩ := by
    intro ws
    induction ws with
    | nil => intro c hc; exact hc
    | cons w ws ih =>
      intro c hc
      apply ih
      subst hc
      simp [Costs.wait, codeUs, SysApi.tickUs, sub64]
  rw [h ws (Costs.init codeUs t0) rfl]
  exact ⟨rfl, rfl⟩

/-- C161 is false of the code: the execution time reported is 0 for every function, and the waiting time depends on nothing but the time
    the function was queued at: it is the negative of it, in microseconds and 32 bits. -/
theorem C161_perf_wrong (queuedMs t t' : Nat) :
    (perf codeUs queuedMs t t').2 = 0 ∧ (perf codeUs queuedMs t t').1 = (2 ^ 32 - queuedMs * 1000 % 2 ^ 32) % 2 ^ 32 := by
  simp only [perf, codeUs, SysApi.tickUs, sub64]
  constructor
  · decide
  · omega

/-- a function queued one second after the clock started and executed at once seems to have waited 71 minutes -/
example : (perf codeUs 1000 1000000 1000000).1 = 4293967296 := by decide +kernel

end Verif.RunQuery
