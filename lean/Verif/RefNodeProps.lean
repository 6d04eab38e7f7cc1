import Verif.RefNode
/-!
  C157: the per-thread lock records of a reference object.
-/
namespace Verif.RefNode

/-! ## Specification -/

/-- All states of all schedules in which no thread spends a minute or more inside one call of
    `robj_this_thread_node_get` … `robj_this_thread_node_put` (a handful of instructions). -/
inductive Reach : St → Prop where
  | init : Reach St.init
  | step {s s' a} : Reach s → (∀ d, a = .tick d → ∀ t, s.ph t ≠ .out → s.now + d < s.start t + 60000) →
      step s a = some s' → Reach s'

/-- `usage` counts the tree and the owner while it is between get and put. -/
def Phase.counted : Phase → Bool
  | .got _ | .stamped _ | .wrote _ => true
  | _ => false

/-- The record a thread works on. -/
def Phase.addr : Phase → Option Nat
  | .got a | .stamped a | .wrote a | .deced a => some a
  | _ => none

/-- After the stamp. -/
def Phase.fresh : Phase → Bool
  | .stamped _ | .wrote _ | .deced _ => true
  | _ => false

structure Inv (s : St) : Prop where
  noUaf : s.uaf = false
  noLost : s.lost = false
  inTree : ∀ u a, s.tree u = some a → ∃ r, s.mem a = some r ∧ r.tid = u ∧ r.lock = s.lc u ∧ r.get = s.gc u ∧
    r.usage = (if (s.ph u).counted then 2 else 1)
  noTree : ∀ u, s.tree u = none → s.lc u = 0 ∧ s.gc u = 0
  works : ∀ u a, (s.ph u).addr = some a → s.tree u = some a
  creating : ∀ u a, s.ph u = .creating a → s.tree u = none ∧
    ∃ r, s.mem a = some r ∧ r.tid = u ∧ r.usage = 2 ∧ r.lock = 0 ∧ r.get = 0
  unused : ∀ a, s.next ≤ a → s.mem a = none
  stamp : ∀ u a r, (s.ph u).fresh = true → (s.ph u).addr = some a → s.mem a = some r → s.start u ≤ r.ts
  window : ∀ u, s.ph u ≠ .out → s.now < s.start u + 60000
  past : ∀ u, s.ph u ≠ .out → s.start u ≤ s.now
  erased : ∀ u a, s.cl = some (.erased u a) → s.tree u = none ∧ s.ph u = .out ∧
    ∃ r, s.mem a = some r ∧ r.tid = u ∧ r.usage = 1
  deced : ∀ u a, s.cl = some (.deced u a) → s.tree u = none ∧ s.ph u = .out ∧
    ∃ r, s.mem a = some r ∧ r.tid = u ∧ r.usage = 0
  noLeak : ∀ a r, s.mem a = some r → s.tree r.tid = some a ∨ s.ph r.tid = .creating a ∨
    s.cl = some (.erased r.tid a) ∨ s.cl = some (.deced r.tid a)

theorem inv_init : Inv St.init := by
  constructor <;> simp [St.init, Phase.addr, Phase.fresh]

theorem idle_fresh {now ts : Nat} (h : now < ts + 60000) : ¬ idleInt now ts ≥ 60000 := by
  unfold idleInt
  simp only
  split <;> omega

set_option maxHeartbeats 2000000 in
theorem inv_step {s s' : St} {a : Act} (h : Inv s)
    (ht : ∀ d, a = .tick d → ∀ t, s.ph t ≠ .out → s.now + d < s.start t + 60000)
    (hs : step s a = some s') : Inv s' := by
  obtain ⟨h1, h2, h3, h4, h5, h6, h7, h8, h9, h9', h10, h11, h12⟩ := h
  cases a with
  | find t create junk =>
    simp only [step] at hs
    split at hs
    · rename_i hc
      split at hs
      · rename_i b hb
        obtain ⟨r, hr⟩ := h3 t b hb
        simp only [St.touch, hr.1, Option.some.injEq] at hs
        subst hs
        constructor <;> simp only [upd] <;> grind [Phase.addr, Phase.counted, Phase.fresh]
      · rename_i hb
        split at hs
        · simp only [Option.some.injEq] at hs
          subst hs
          have hnew : ∃ r : Rec, some (⟨t, 2, 0, 0, junk⟩ : Rec) = some r ∧ r.tid = t ∧ r.usage = 2 ∧
              r.lock = 0 ∧ r.get = 0 := ⟨_, rfl, rfl, rfl, rfl, rfl⟩
          constructor <;> simp only [upd] <;> grind [Phase.addr, Phase.counted, Phase.fresh]
        · simp only [Option.some.injEq] at hs
          subst hs
          constructor <;> grind [Phase.addr, Phase.counted, Phase.fresh]
    · cases hs
  | insert t =>
    simp only [step] at hs
    split at hs
    · split at hs
      · simp only [Option.some.injEq] at hs
        subst hs
        constructor <;> simp only [upd] <;> grind [Phase.addr, Phase.counted, Phase.fresh]
      · cases hs
    · cases hs
  | stamp t =>
    simp only [step] at hs
    split at hs
    · rename_i b hb
      obtain ⟨r, hr⟩ := h3 t b (h5 t b (by rw [hb]; rfl))
      simp only [St.touch, hr.1, Option.some.injEq] at hs
      subst hs
      constructor <;> simp only [upd] <;> grind [Phase.addr, Phase.counted, Phase.fresh]
    · cases hs
  | write t lock get =>
    simp only [step] at hs
    split at hs
    · rename_i b hb
      obtain ⟨r, hr⟩ := h3 t b (h5 t b (by rw [hb]; rfl))
      simp only [St.touch, hr.1, Option.some.injEq] at hs
      subst hs
      constructor <;> simp only [upd] <;> grind [Phase.addr, Phase.counted, Phase.fresh]
    · cases hs
  | dec t =>
    simp only [step] at hs
    split at hs
    · rename_i b hb
      obtain ⟨r, hr⟩ := h3 t b (h5 t b (by rw [hb]; rfl))
      simp only [St.touch, hr.1, Option.some.injEq] at hs
      subst hs
      constructor <;> simp only [upd] <;> grind [Phase.addr, Phase.counted, Phase.fresh]
    · cases hs
  | test t =>
    simp only [step] at hs
    split at hs
    · rename_i b hb
      obtain ⟨r, hr⟩ := h3 t b (h5 t b (by rw [hb]; rfl))
      have hu : r.usage ≠ 0 := by rw [hr.2.2.2.2]; split <;> omega
      simp only [St.touch, hr.1, Option.some.injEq, hu, if_false] at hs
      subst hs
      constructor <;> simp only [upd] <;> grind [Phase.addr, Phase.counted, Phase.fresh]
    · cases hs
  | clStart =>
    simp only [step] at hs
    split at hs
    · simp only [Option.some.injEq] at hs
      subst hs
      constructor <;> grind [Phase.addr, Phase.counted, Phase.fresh]
    · cases hs
  | clErase u =>
    simp only [step] at hs
    split at hs
    · split at hs
      · cases hs
      · rename_i b hb
        obtain ⟨r, hr⟩ := h3 u b hb
        simp only [hr.1] at hs
        split at hs
        · rename_i hm
          simp only [mayErase, Bool.and_eq_true, beq_iff_eq, decide_eq_true_eq] at hm
          have hout : s.ph u = .out := by
            cases hp : s.ph u with
            | out => rfl
            | deced b' =>
              have h5' := h5 u b' (by rw [hp]; rfl)
              have hbb : b' = b := by rw [hb] at h5'; exact (Option.some.inj h5').symm
              subst hbb
              have hst := h8 u b' r (by rw [hp]; rfl) (by rw [hp]; rfl) hr.1
              have hw := h9 u (by rw [hp]; simp)
              exact absurd hm.2 (idle_fresh (by omega))
            | creating b' => have := h6 u b' hp; rw [hb] at this; simp at this
            | _ => have h22 := hr.2.2.2.2; rw [hp] at h22; simp [Phase.counted] at h22; omega
          simp only [Option.some.injEq] at hs
          subst hs
          constructor <;> simp only [upd] <;> grind [Phase.addr, Phase.counted, Phase.fresh]
        · cases hs
    · cases hs
  | clDec =>
    simp only [step] at hs
    split at hs
    · rename_i u b hb
      obtain ⟨e1, e2, r, hr⟩ := h10 u b hb
      simp only [St.touch, hr.1, Option.some.injEq] at hs
      subst hs
      constructor <;> simp only [upd] <;> grind [Phase.addr, Phase.counted, Phase.fresh]
    · cases hs
  | clFree =>
    simp only [step] at hs
    split at hs
    · rename_i u b hb
      obtain ⟨e1, e2, r, hr⟩ := h11 u b hb
      simp only [St.touch, hr.1, Option.some.injEq, hr.2.2, if_true] at hs
      subst hs
      constructor <;> simp only [upd] <;> grind [Phase.addr, Phase.counted, Phase.fresh]
    · cases hs
  | clEnd =>
    simp only [step] at hs
    split at hs
    · simp only [Option.some.injEq] at hs
      subst hs
      constructor <;> grind [Phase.addr, Phase.counted, Phase.fresh]
    · cases hs
  | tick d =>
    simp only [step, Option.some.injEq] at hs
    subst hs
    have ht := ht d rfl
    constructor <;> grind [Phase.addr, Phase.counted, Phase.fresh]

theorem inv_reach {s : St} (h : Reach s) : Inv s := by
  induction h with
  | init => exact inv_init
  | step _ ht hs ih => exact inv_step ih ht hs

/-! ## Properties -/

/-- C157 (safety).  As long as no thread is held up for a minute within the few instructions between
    finding its record and letting go of it, in every schedule of any number of threads and cleanups
    no freed record is ever read or written, and an unlock or put never finds the record of its own
    thread missing (which would end the process) while the thread holds a lock or a reference. -/
theorem C157_safe_partial {s : St} (h : Reach s) : s.uaf = false ∧ s.lost = false :=
  ⟨(inv_reach h).noUaf, (inv_reach h).noLost⟩

/-- What a thread finds in its record is exactly what it last wrote itself: its lock count and its
    reference count are never lost, reset or mixed up with another thread's. -/
theorem C157_exact_partial {s : St} (h : Reach s) (t a : Nat) (hp : s.ph t = .stamped a) :
    ∃ r, s.mem a = some r ∧ r.tid = t ∧ r.lock = s.lc t ∧ r.get = s.gc t := by
  obtain ⟨r, h1, h2, h3, h4, -⟩ := (inv_reach h).inTree t a ((inv_reach h).works t a (by rw [hp]; rfl))
  exact ⟨r, h1, h2, h3, h4⟩

/-- A thread that holds a lock or a reference keeps its record, however long it holds it. -/
theorem C157_kept_partial {s : St} (h : Reach s) (t : Nat) (hh : s.lc t ≠ 0 ∨ s.gc t ≠ 0) :
    ∃ a r, s.tree t = some a ∧ s.mem a = some r ∧ r.lock = s.lc t ∧ r.get = s.gc t := by
  cases htr : s.tree t with
  | none => have := (inv_reach h).noTree t htr; omega
  | some a =>
    obtain ⟨r, h1, h2, h3, h4, -⟩ := (inv_reach h).inTree t a htr
    exact ⟨a, r, rfl, h1, h3, h4⟩

/-- No record leaks: when no call is under way, every record still allocated is in the tree with a
    usage of one, so that the destructor (kernel/refobj.c:443-454), which erases and puts every record of
    the tree, frees all of them. -/
theorem C157_no_leak_partial {s : St} (h : Reach s) (hq : ∀ t, s.ph t = .out) (hc : s.cl = none)
    (a : Nat) (r : Rec) (hm : s.mem a = some r) : s.tree r.tid = some a ∧ r.usage = 1 := by
  rcases (inv_reach h).noLeak a r hm with ht | ht | ht | ht
  · obtain ⟨r', h1, h2, h3, h4, h5⟩ := (inv_reach h).inTree _ a ht
    rw [hm] at h1; cases h1
    exact ⟨ht, by rw [h5, hq]; rfl⟩
  · rw [hq] at ht; cases ht
  · rw [hc] at ht; cases ht
  · rw [hc] at ht; cases ht

/-- Which records a cleanup takes: those in use by nobody, with no lock and no reference, whose idle
    time, modulo 2^32 ms, is at least a minute and less than 2^31 ms. -/
theorem C157_cleanup_condition (now : Nat) (r : Rec) :
    mayErase now r = true ↔
      r.usage = 1 ∧ r.get = 0 ∧ r.lock = 0 ∧
        60000 ≤ (now - r.ts) % 2 ^ 32 ∧ (now - r.ts) % 2 ^ 32 < 2 ^ 31 := by
  have hi : idleInt now r.ts ≥ 60000 ↔
      60000 ≤ (now - r.ts) % 2 ^ 32 ∧ (now - r.ts) % 2 ^ 32 < 2 ^ 31 := by
    unfold idleInt
    simp only
    have hm : (now - r.ts) % 2 ^ 32 < 2 ^ 32 := Nat.mod_lt _ (by decide)
    revert hm
    generalize (now - r.ts) % 2 ^ 32 = m
    intro hm
    split <;> omega
  simp only [mayErase, Bool.and_eq_true, beq_iff_eq]
  rw [decide_eq_true_iff, hi]
  simp only [and_assoc]

/-- A record that has been idle for 25 to 49 days is taken for one in use. -/
theorem C157_month (now : Nat) (r : Rec) (h1 : 2 ^ 31 ≤ now - r.ts) (h2 : now - r.ts < 2 ^ 32) :
    mayErase now r = false := by
  cases h : mayErase now r with
  | false => rfl
  | true => rw [C157_cleanup_condition] at h; omega

/-- The flags mean what they say: `lost` is set exactly by a lookup, without creation, by a thread that has no record although it holds a lock
    or a reference; and the 32-bit idle time is the true one modulo 2^32, as a signed number. -/
theorem C157_flags (s : St) (t junk : Nat) (ho : s.ph t = .out) (hc : s.cl = none) (ht : s.tree t = none) :
    (∃ s', step s (.find t false junk) = some s' ∧
      (s'.lost = true ↔ s.lost = true ∨ s.lc t ≠ 0 ∨ s.gc t ≠ 0)) ∧
    (∀ now ts, (idleInt now ts - ((now - ts : Nat) : Int)) % 2 ^ 32 = 0 ∧ -(2 ^ 31) ≤ idleInt now ts ∧ idleInt now ts < 2 ^ 31) := by
  constructor
  · refine ⟨{ s with lost := s.lost || decide (s.lc t ≠ 0 ∨ s.gc t ≠ 0) }, ?_, ?_⟩
    · simp only [step, ho, hc, ht]; rfl
    · simp
  · intro now ts
    unfold idleInt
    simp only
    generalize now - ts = n
    have h1 : n = 2 ^ 32 * (n / 2 ^ 32) + n % 2 ^ 32 := (Nat.div_add_mod n (2 ^ 32)).symm
    have hm : n % 2 ^ 32 < 2 ^ 32 := Nat.mod_lt _ (by decide)
    split <;> refine ⟨?_, ?_, ?_⟩ <;> omega

/-- a thread that holds a lock and has no record -/
example : ∃ s : St, s.ph 1 = .out ∧ s.cl = none ∧ s.tree 1 = none ∧ s.lc 1 ≠ 0 :=
  ⟨{ St.init with lc := fun _ => 1 }, rfl, rfl, rfl, by decide⟩

/-! ### the condition on the pause is needed -/

/-- Thread 1 locks and unlocks; in the unlock it is suspended for a minute right after `usage--`. -/
def suspended : List Act :=
  [.find 1 true 0, .insert 1, .stamp 1, .write 1 1 0, .dec 1, .test 1,
   .find 1 false 0, .stamp 1, .write 1 0 0, .dec 1,
   .tick 60000, .clStart, .clErase 1, .clDec, .clFree, .clEnd,
   .test 1]

/-- C157 without the assumption is false: another thread's cleanup frees the record of a thread that has been
    suspended for a minute inside `__thread_node_put`, which then reads it. -/
theorem C157_uaf : ∃ s, run St.init suspended = some s ∧ s.uaf = true :=
  ⟨_, rfl, rfl⟩

/-! ### the hypotheses are met -/

theorem reach_run {l : List Act} : ∀ {s s' : St}, Reach s → (∀ a ∈ l, ∀ d, a ≠ .tick d) →
    run s l = some s' → Reach s' := by
  induction l with
  | nil => intro s s' h _ hr; cases hr; exact h
  | cons a l ih =>
    intro s s' h hl hr
    simp only [run] at hr
    cases hs : step s a with
    | none => rw [hs] at hr; cases hr
    | some s1 =>
      rw [hs] at hr
      exact ih (Reach.step h (fun d hd => absurd hd (hl a (by simp) d)) hs)
        (fun b hb => hl b (by simp [hb])) hr

/-- The thread an action belongs to. -/
def Act.thread : Act → Option Nat
  | .find t _ _ | .insert t | .stamp t | .write t _ _ | .dec t | .test t => some t
  | _ => none

theorem step_ph {s s' : St} {a : Act} {t : Nat} (h : a.thread ≠ some t) (hs : step s a = some s') :
    s'.ph t = s.ph t := by
  have hu : ∀ {β : Type} (f : Nat → β) (i : Nat) (v : β), i ≠ t → upd f i v t = f t := by
    intro β f i v hne
    simp only [upd]
    rw [if_neg (fun h => hne h.symm)]
  cases a <;> simp only [Act.thread, ne_eq, Option.some.injEq] at h <;> simp only [step, St.touch] at hs <;>
    (repeat' split at hs) <;> (try cases hs) <;> simp only <;> (try rfl) <;> exact hu _ _ _ h

theorem run_ph {l : List Act} {t : Nat} : ∀ {s s' : St}, (∀ a ∈ l, a.thread ≠ some t) →
    run s l = some s' → s'.ph t = s.ph t := by
  induction l with
  | nil => intro s s' _ hr; cases hr; rfl
  | cons a l ih =>
    intro s s' hl hr
    simp only [run] at hr
    cases hs : step s a with
    | none => rw [hs] at hr; cases hr
    | some s1 =>
      rw [hs] at hr
      rw [ih (fun b hb => hl b (by simp [hb])) hr, step_ph (hl a (by simp)) hs]

/-- Threads 1 and 2 get their records; thread 1 keeps a lock. -/
def demo1 : List Act :=
  [.find 1 true 7, .insert 1, .stamp 1, .write 1 3 0, .dec 1, .test 1,
   .find 2 true 9, .insert 2, .stamp 2, .write 2 0 0, .dec 2, .test 2]

/-- Later a third thread cleans up and thread 1 looks at its record again. -/
def demo2 : List Act := [.clStart, .clErase 2, .clDec, .clFree, .clEnd, .find 1 false 0, .stamp 1]

/-- After a minute and a half thread 2's record has been cleaned up, thread 1 still holds its lock and is about to look at
    its record. -/
example : ∃ s, Reach s ∧ s.ph 1 = .stamped 0 ∧ s.lc 1 = 3 ∧ s.tree 2 = none ∧ s.mem 1 = none ∧ s.next = 2 := by
  have h1 : ∃ s, run St.init demo1 = some s ∧ s.ph 1 = .out ∧ s.ph 2 = .out := by
    have : (match run St.init demo1 with
      | some s => decide (s.ph 1 = .out) && decide (s.ph 2 = .out)
      | none => false) = true := by decide +kernel
    split at this
    · rename_i s hs
      simp at this
      exact ⟨s, hs, this.1, this.2⟩
    · cases this
  obtain ⟨s1, hs1, ha, hb⟩ := h1
  have hr1 : Reach s1 := reach_run Reach.init (by simp [demo1]) hs1
  have hout : ∀ t, s1.ph t = .out := by
    intro t
    by_cases e1 : t = 1
    · subst e1; exact ha
    · by_cases e2 : t = 2
      · subst e2; exact hb
      · have e1' : ¬ 1 = t := fun h => e1 h.symm
        have e2' : ¬ 2 = t := fun h => e2 h.symm
        rw [run_ph (t := t) (by simp [demo1, Act.thread, e1', e2']) hs1]
        rfl
  have hr2 : Reach { s1 with now := s1.now + 90000 } :=
    Reach.step (a := .tick 90000) hr1 (fun d _ t ht => absurd (hout t) ht) rfl
  have h2 : (match run St.init demo1 with
      | some s => match run { s with now := s.now + 90000 } demo2 with
        | some s => decide (s.ph 1 = .stamped 0) && decide (s.lc 1 = 3) && decide (s.tree 2 = none) &&
            decide (s.mem 1 = none) && decide (s.next = 2)
        | none => false
      | none => false) = true := by decide +kernel
  rw [hs1] at h2
  simp only at h2
  split at h2
  · rename_i s2 hs2
    simp only [Bool.and_eq_true, decide_eq_true_eq] at h2
    exact ⟨s2, reach_run hr2 (by simp [demo2]) hs2, h2.1.1.1.1, h2.1.1.1.2, h2.1.1.2, h2.1.2, h2.2⟩
  · cases h2

end Verif.RefNode
