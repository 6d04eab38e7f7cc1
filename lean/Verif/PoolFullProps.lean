import Verif.PoolFull

/-!
  C219: a call that queues a function into a pool comes to an end once the queue has worked off what was
  queued.  C220: aosl_mpq_queued_count tells the number of functions queued and not finished.
-/
namespace Verif.PoolFull
namespace Spec

/-- The calls into the pool that are under way at this queue. -/
def poolCallers (s : St) : Nat := s.fresh + s.wait + s.added + s.sync + s.refused

/-- States after the histories of a new queue. -/
def Reach (max : Nat) (nb : Bool) (s : St) : Prop := ∃ l, run max nb init l = some s

/-- The same, with fewer than `k` calls into the pool under way at any time. -/
def ReachBelow (max : Nat) (nb : Bool) (k : Nat) (s : St) : Prop :=
  ∃ l, run max nb init l = some s ∧ ∀ l' l'' t, l = l' ++ l'' → run max nb init l' = some t → poolCallers t < k

/-- Events that are not a new call, a new function that ignores the limit or a spurious wake-up: the calls
    under way and the queue get on. -/
def Inner (e : Ev) : Prop := e ≠ .get ∧ e ≠ .dcall ∧ e ≠ .noFail ∧ e ≠ .spurious ∧ e ≠ .dspurious

/-- functions added in a history, and functions finished -/
def adds : List Ev → Nat
  | [] => 0
  | e :: l => (if e = .add ∨ e = .addSync ∨ e = .dadd ∨ e = .noFail then 1 else 0) + adds l
def execs : List Ev → Nat
  | [] => 0
  | e :: l => (if e = .exec ∨ e = .execSync then 1 else 0) + execs l
/-- calls into the pool begun, and returned -/
def begun : List Ev → Nat
  | [] => 0
  | e :: l => (if e = .get then 1 else 0) + begun l
def returned : List Ev → Nat
  | [] => 0
  | e :: l => (if e = .put ∨ e = .putRefused then 1 else 0) + returned l

end Spec
open Spec

theorem run_append {max : Nat} {nb : Bool} (l1 l2 : List Ev) (s : St) :
    run max nb s (l1 ++ l2) = (run max nb s l1).bind fun t => run max nb t l2 := by
  induction l1 generalizing s with
  | nil => rfl
  | cons e l ih =>
    simp only [List.cons_append, run]
    cases step max nb s e with
    | none => rfl
    | some t => simp [ih]

/-- an invariant of the steps holds after every history -/
theorem run_inv {max : Nat} {nb : Bool} {P : St → Prop} (hs : ∀ s e t, P s → step max nb s e = some t → P t)
    {s t : St} (l : List Ev) (h0 : P s) (h : run max nb s l = some t) : P t := by
  induction l generalizing s with
  | nil => simp [run] at h; exact h ▸ h0
  | cons e l ih =>
    obtain ⟨u, h1, h2⟩ := Option.bind_eq_some_iff.1 h
    exact ih (hs _ _ _ h0 h1) h2

theorem snoc_ind {P : List Ev → Prop} (h0 : P []) (hs : ∀ l e, P l → P (l ++ [e])) (l : List Ev) : P l := by
  rw [← List.reverse_reverse l]
  induction l.reverse with
  | nil => exact h0
  | cons e l ih => rw [List.reverse_cons]; exact hs _ _ ih

theorem count_step {max : Nat} {nb : Bool} (s : St) (e : Ev) (t : St)
    (hi : s.count = s.objs + poolCallers s ∧ s.sync ≤ s.objs) (h : step max nb s e = some t) :
    t.count = t.objs + poolCallers t ∧ t.sync ≤ t.objs := by
  unfold poolCallers at *
  cases e <;> simp only [step] at h <;> (try split at h) <;> cases h <;> dsimp only <;> omega

theorem reach_count {max : Nat} {nb : Bool} {s : St} (h : Reach max nb s) : s.count = s.objs + poolCallers s ∧ s.sync ≤ s.objs := by
  obtain ⟨l, h⟩ := h
  exact run_inv count_step l (by decide) h

/-! ### Calls that never return -/

theorem stuck_step {max a b c m : Nat} (s : St) (e : Ev) (t : St)
    (hi : max ≤ s.fresh + s.wait ∧ s.added = 0 ∧ s.refused = 0 ∧ s.sync = 0 ∧ (s.count = s.objs + poolCallers s ∧ s.sync ≤ s.objs) ∧
      s.ok = a ∧ s.again = b ∧ s.dok = c ∧ m ≤ s.fresh + s.wait) (h : step max false s e = some t) :
    max ≤ t.fresh + t.wait ∧ t.added = 0 ∧ t.refused = 0 ∧ t.sync = 0 ∧ (t.count = t.objs + poolCallers t ∧ t.sync ≤ t.objs) ∧
      t.ok = a ∧ t.again = b ∧ t.dok = c ∧ m ≤ t.fresh + t.wait := by
  have hc := count_step s e t hi.2.2.2.2.1 h
  obtain ⟨h1, h2, h3, h9, h4, h5, h6, h7, h8⟩ := hi
  unfold poolCallers at h4
  cases e <;> simp only [step] at h <;> (try split at h) <;> cases h <;>
    refine ⟨?_, ?_, ?_, ?_, hc, ?_, ?_, ?_, ?_⟩ <;> dsimp only <;> first | omega | (simp_all; done)

/-- C219 (calls for ever). Once as many calls into the pool are at a queue as its limit allows functions, and
    none of them has added its function, no call to this queue ever returns any more, whatever else happens. -/
theorem C219_stuck {max : Nat} {s t : St} (h : Reach max false s) (hk : max ≤ s.fresh + s.wait)
    (ha : s.added = 0) (hr : s.refused = 0) (hy : s.sync = 0) (l : List Ev) (ht : run max false s l = some t) :
    t.ok = s.ok ∧ t.again = s.again ∧ t.dok = s.dok ∧ s.fresh + s.wait ≤ t.fresh + t.wait := by
  have hi := run_inv (fun a e b => stuck_step a e b) l ⟨hk, ha, hr, hy, reach_count h, rfl, rfl, rfl, Nat.le_refl _⟩ ht
  exact hi.2.2.2.2.2

theorem run_gets (max : Nat) (nb : Bool) (k : Nat) (s : St) :
    run max nb s (List.replicate k .get) = some { s with fresh := s.fresh + k, count := s.count + k } := by
  induction k generalizing s with
  | zero => simp [run]
  | succ k ih =>
    simp only [List.replicate_succ, run, step, Option.bind_some, ih, Option.some.injEq, St.mk.injEq, true_and, and_true]
    omega

theorem run_blocks (max k : Nat) (s : St) (h : k ≤ s.fresh) (hc : (max : Int) ≤ s.count) :
    run max false s (List.replicate k .block) = some { s with fresh := s.fresh - k, wait := s.wait + k } := by
  induction k generalizing s with
  | zero => simp [run]
  | succ k ih =>
    simp only [List.replicate_succ, run]
    have : step max false s .block = some { s with fresh := s.fresh - 1, wait := s.wait + 1 } := by
      simp only [step]; rw [if_pos ⟨by omega, by omega, trivial⟩]
    rw [this, Option.bind_some, ih _ (by dsimp only; omega) (by dsimp only; omega)]
    congr 2 <;> dsimp only <;> omega

/-- C219 (violated). For every limit there is a history in which as many callers as the limit wait at a queue
    that has nothing to do, and whatever happens afterwards none of them, nor any later call, returns. -/
theorem C219_violated (max : Nat) : ∃ s, Reach max false s ∧ s.wait = max ∧ s.objs = 0 ∧ poolCallers s = max ∧
    ∀ l t, run max false s l = some t → t.ok = 0 ∧ t.again = 0 ∧ t.dok = 0 ∧ max ≤ t.fresh + t.wait := by
  have h1 := run_gets max false max init
  have h2 := run_blocks max max { init with fresh := init.fresh + max, count := init.count + max }
    (by simp [init]) (by simp [init])
  have hr : Reach max false { init with fresh := 0, count := max, wait := max } := by
    refine ⟨List.replicate max .get ++ List.replicate max .block, ?_⟩
    rw [run_append, h1, Option.bind_some, h2]
    simp [init]
  refine ⟨_, hr, rfl, rfl, by simp [poolCallers, init], fun l t ht => ?_⟩
  obtain ⟨a, b, c, d⟩ := C219_stuck hr (by simp [init]) rfl rfl rfl l ht
  exact ⟨a, b, c, by simpa [init] using d⟩

/-- C219 (limit 1). A pool created with `max` 1, which aosl_mpqp_create accepts, never takes a function: no
    call into it ever succeeds, and with AOSL_MPQ_FLAG_NONBLOCK every one fails. -/
theorem C219_one (nb : Bool) {s : St} (h : Reach 1 nb s) : s.ok = 0 ∧ s.added = 0 ∧ s.sync = 0 := by
  obtain ⟨l, h⟩ := h
  have := run_inv (P := fun u => (u.count = u.objs + poolCallers u ∧ u.sync ≤ u.objs) ∧ u.ok = 0 ∧ u.added = 0 ∧ u.sync = 0)
    (fun a e b hp hst => by
      refine ⟨count_step a e b hp.1 hst, ?_⟩
      obtain ⟨g1, g2, g3, g4⟩ := hp
      unfold poolCallers at g1
      cases e <;> simp only [step] at hst <;> (try split at hst) <;> cases hst <;> simp_all <;> omega) l (by decide) h
  exact this.2

/-! ### Calls that return -/

/-- what is left to do -/
def potential (s : St) : Nat :=
  7 * (s.fresh + s.dfresh) + 6 * (s.wait + s.dwait) + 4 * s.objs + (s.added + s.refused) + s.sync + (if s.sig then 2 else 0)

theorem potential_step {max : Nat} {nb : Bool} {s t : St} {e : Ev} (he : Inner e) (h : step max nb s e = some t) :
    potential t < potential s := by
  unfold potential
  obtain ⟨e1, e2, e3, e4, e5⟩ := he
  cases e <;> simp only [step] at h <;> (try split at h) <;> cases h <;> first | contradiction | skip <;>
    dsimp only <;> (try split) <;> simp_all <;> omega

/-- C219 (the calls under way cannot go on for ever). However the steps of the callers and of the queue are
    interleaved, there are at most as many as the state has work. -/
theorem C219_bounded {max : Nat} {nb : Bool} {s t : St} (l : List Ev) (hl : ∀ e ∈ l, Inner e)
    (h : run max nb s l = some t) : l.length + potential t ≤ potential s := by
  induction l generalizing s with
  | nil => simp [run] at h; simp [h]
  | cons e l ih =>
    obtain ⟨u, h1, h2⟩ := Option.bind_eq_some_iff.1 h
    have := potential_step (hl e (by simp)) h1
    have := ih (fun x hx => hl x (by simp [hx])) h2
    simp only [List.length_cons]
    omega

theorem below_prefix {max k : Nat} {nb : Bool} (hk : k ≤ max) (l : List Ev) : ∀ s, run max nb init l = some s →
    (∀ l' l'' t, l = l' ++ l'' → run max nb init l' = some t → poolCallers t < k) →
    (0 < s.wait + s.dwait → 0 < s.objs ∨ 0 < s.fresh + s.dfresh ∨ s.sig = true) := by
  refine snoc_ind (P := fun l => ∀ s, run max nb init l = some s →
    (∀ l' l'' t, l = l' ++ l'' → run max nb init l' = some t → poolCallers t < k) →
    (0 < s.wait + s.dwait → 0 < s.objs ∨ 0 < s.fresh + s.dfresh ∨ s.sig = true)) ?_ ?_ l
  · intro s h; simp [run] at h; subst h; simp [init]
  · intro l e ih s h hb
    rw [run_append] at h
    obtain ⟨u, h1, h2⟩ := Option.bind_eq_some_iff.1 h
    simp only [run] at h2
    obtain ⟨v, h2, h3⟩ := Option.bind_eq_some_iff.1 h2
    cases h3
    have hu := ih u h1 (fun l' l'' t hl => hb l' (l'' ++ [e]) t (by rw [hl, List.append_assoc]))
    have hc := reach_count ⟨l, h1⟩
    have hp := hb l [e] u rfl h1
    unfold poolCallers at hc hp
    cases e <;> simp only [step] at h2 <;> (try split at h2) <;> cases h2 <;> simp_all <;> omega

/-- C219 (proved part: fewer callers than the limit). As long as the calls into the pool under way at a queue
    are fewer than its limit, they cannot get stuck: when nothing can go on any more, every call has returned
    and every function has been executed.  With `C219_bounded`, every call returns when nothing new arrives.
    (What is missing: as many callers as the limit or more, where the claim is false, `C219_violated`.) -/
theorem C219_returns_partial {max : Nat} {nb : Bool} {s : St} (h : ReachBelow max nb max s)
    (hq : ∀ e, Inner e → step max nb s e = none) :
    poolCallers s = 0 ∧ s.dfresh = 0 ∧ s.dwait = 0 ∧ s.objs = 0 ∧ s.count = 0 := by
  obtain ⟨l, h, hb⟩ := h
  have hw := below_prefix (Nat.le_refl _) l s h hb
  have hc := reach_count ⟨l, h⟩
  have q1 := hq .add (by simp [Inner])
  have q2 := hq .block (by simp [Inner])
  have q3 := hq .refuse (by simp [Inner])
  have q4 := hq .put (by simp [Inner])
  have q5 := hq .putRefused (by simp [Inner])
  have q6 := hq .dadd (by simp [Inner])
  have q7 := hq .dblock (by simp [Inner])
  have q8 := hq .drefuse (by simp [Inner])
  have q9 := hq .exec (by simp [Inner])
  have q13 := hq .execSync (by simp [Inner])
  have q10 := hq .sig0 (by simp [Inner])
  have q11 := hq .sigPool (by simp [Inner])
  have q12 := hq .sigQueue (by simp [Inner])
  simp only [step, ite_eq_right_iff, reduceCtorEq, imp_false] at q1 q2 q3 q4 q5 q6 q7 q8 q9 q10 q11 q12 q13
  have f1 : s.fresh = 0 := by cases nb <;> simp at * <;> omega
  have f2 : s.dfresh = 0 := by cases nb <;> simp at * <;> omega
  have f3 : s.sig = false := by
    cases hs : s.sig with
    | false => rfl
    | true => simp [hs] at q10 q11 q12; omega
  have f4 : s.objs = 0 := by simp [f3] at q9 q13; omega
  have f5 : s.wait = 0 ∧ s.dwait = 0 := by simp [f1, f2, f3, f4] at hw; omega
  unfold poolCallers at *
  omega

/-! ### The queued count -/

theorem events_step {max : Nat} {nb : Bool} (l : List Ev) {s t : St} (h : run max nb s l = some t) :
    t.objs + execs l = s.objs + adds l ∧ poolCallers t + returned l = poolCallers s + begun l := by
  induction l generalizing s with
  | nil => simp [run] at h; simp [h, adds, execs, begun, returned]
  | cons e l ih =>
    obtain ⟨u, h1, h2⟩ := Option.bind_eq_some_iff.1 h
    have := ih h2
    unfold poolCallers at *
    simp only [adds, execs, begun, returned]
    cases e <;> simp only [step] at h1 <;> (try split at h1) <;> cases h1 <;> simp_all <;> omega

/-! ### Every call is somewhere -/

def dcalls (l : List Ev) : Nat := l.count .dcall
def drefused (l : List Ev) : Nat := l.count .drefuse

theorem dcalls_step {max : Nat} {nb : Bool} (l : List Ev) {s t : St} (h : run max nb s l = some t) :
    t.dok + t.dfresh + t.dwait + drefused l = s.dok + s.dfresh + s.dwait + dcalls l := by
  induction l generalizing s with
  | nil => simp [run] at h; simp [h, drefused, dcalls]
  | cons e l ih =>
    obtain ⟨u, h1, h2⟩ := Option.bind_eq_some_iff.1 h
    have := ih h2
    unfold drefused dcalls at *
    simp only [List.count_cons]
    cases e <;> simp only [step] at h1 <;> (try split at h1) <;> cases h1 <;> simp_all <;> omega

/-- C219 (accounting). Every call of aosl_mpq_queue on a queue of a pool has returned 0, has returned EAGAIN, looks for room, or waits: no
    caller is lost and none is let in twice; at the beginning the queue thread owes nobody a look. -/
theorem C219_direct {max : Nat} {nb : Bool} {l : List Ev} {s : St} (h : run max nb init l = some s) :
    dcalls l = s.dok + drefused l + s.dfresh + s.dwait ∧ (l = [] → s.sig = false) := by
  have := dcalls_step l h
  simp only [init] at this
  refine ⟨by omega, ?_⟩
  rintro rfl
  simp only [run, Option.some.injEq] at h
  exact h ▸ rfl

example : ∃ s, run 1 false init [.dcall, .dadd, .dcall, .dblock, .dcall, .dblock, .dspurious, .dblock] = some s ∧ s.dok = 1 ∧ s.dwait = 2 := ⟨_, rfl, rfl, rfl⟩

/-- C220 (exactly). What aosl_mpq_queued_count answers is the number of functions added and not finished,
    plus one for every call into the pool that is under way at the queue. -/
theorem C220_exact {max : Nat} {nb : Bool} {l : List Ev} {s : St} (h : run max nb init l = some s) :
    queuedCount s = (adds l : Int) - execs l + ((begun l : Int) - returned l) := by
  have h1 := reach_count ⟨l, h⟩
  have h2 := events_step l h
  unfold queuedCount
  unfold poolCallers at *
  simp only [init] at h2
  omega

/-- C220 (proved part: queues that no call into a pool is choosing). The answer is the number of functions
    added and not finished.  (What is missing: calls into the pool under way, `C220_violated`.) -/
theorem C220_queued_partial {max : Nat} {nb : Bool} {l : List Ev} {s : St} (h : run max nb init l = some s)
    (hn : begun l = returned l) : queuedCount s = (adds l : Int) - execs l := by
  rw [C220_exact h, hn]; omega

/-- C220 (violated). The answer can be any number although nothing was ever queued, and with blocked callers it
    stays at least the limit for ever. -/
theorem C220_violated (k : Nat) : ∃ s, Reach k false s ∧ s.objs = 0 ∧ queuedCount s = k ∧
    ∀ l t, run k false s l = some t → (k : Int) ≤ queuedCount t := by
  obtain ⟨s, hr, h1, h2, h3, h4⟩ := C219_violated k
  have hc := reach_count hr
  obtain ⟨l0, hr'⟩ := hr
  have ha : ∀ l t, run k false s l = some t → (k : Int) ≤ queuedCount t := by
    intro l t ht
    have hc := reach_count ⟨l0 ++ l, by rw [run_append, hr', Option.bind_some, ht]⟩
    have := (h4 l t ht).2.2.2
    unfold queuedCount poolCallers at *
    omega
  exact ⟨s, ⟨l0, hr'⟩, h2, by unfold queuedCount; omega, ha⟩

/-- C220 (limit). Functions that do not ignore the limit are added only below it: without additions that ignore
    it, the answer never exceeds the limit by more than the calls under way. -/
theorem C220_limit {max : Nat} {nb : Bool} {l : List Ev} {s : St} (h : run max nb init l = some s)
    (hn : Ev.noFail ∉ l) : s.objs ≤ max := by
  revert s
  refine snoc_ind (P := fun l => Ev.noFail ∉ l → ∀ {s : St}, run max nb init l = some s → s.objs ≤ max) ?_ ?_ l hn
  · intro _ s h; simp [run] at h; subst h; simp [init]
  · intro l e ih hn s h
    rw [run_append] at h
    obtain ⟨u, h1, h2⟩ := Option.bind_eq_some_iff.1 h
    simp only [run] at h2
    obtain ⟨v, h2, h3⟩ := Option.bind_eq_some_iff.1 h2
    cases h3
    have hu := ih (fun hm => hn (by simp [hm])) h1
    have hc := reach_count ⟨l, h1⟩
    have he : e ≠ .noFail := fun hh => hn (by simp [hh])
    unfold poolCallers at hc
    cases e <;> simp only [step] at h2 <;> (try split at h2) <;> cases h2 <;> first | contradiction | skip <;>
      dsimp only <;> omega

/-! ### Histories that meet the hypotheses -/

/-- limit 2, one caller: it adds its function, the function is executed, the call returns -/
def hist : List Ev := [.get, .add, .exec, .sig0, .put]

example : ∃ s, ReachBelow 2 false 2 s ∧ s.ok = 1 ∧ ∀ e, Inner e → step 2 false s e = none := by
  refine ⟨⟨0, 0, 0, 0, 0, 0, 0, 0, false, 0, 1, 0, 0⟩, ⟨hist, rfl, ?_⟩, rfl, ?_⟩
  · intro l' l'' t hl ht
    have : l'.length ≤ 5 := by have := congrArg List.length hl; simp [hist] at this; omega
    have e : l' = hist.take l'.length := by rw [hl]; simp
    rw [e] at ht
    have : ∀ n ≤ 5, ∀ t, run 2 false init (hist.take n) = some t → poolCallers t < 2 := by
      intro n hn t
      have : n = 0 ∨ n = 1 ∨ n = 2 ∨ n = 3 ∨ n = 4 ∨ n = 5 := by omega
      rcases this with rfl | rfl | rfl | rfl | rfl | rfl <;> intro h <;>
        simp [hist, run, step, init] at h <;> subst h <;> decide
    exact this _ (by omega) t ht
  · rintro e ⟨e1, e2, e3, e4, e5⟩
    cases e <;> first | rfl | contradiction
/-- `C219_stuck` at limit 2 -/
example : ∃ s, Reach 2 false s ∧ 2 ≤ s.fresh + s.wait ∧ s.added = 0 ∧ s.refused = 0 ∧ s.sync = 0 :=
  ⟨⟨1, 1, 0, 0, 0, 0, 0, 0, false, 2, 0, 0, 0⟩, ⟨[.get, .get, .block], rfl⟩, by decide, rfl, rfl, rfl⟩
/-- and a caller that was blocked and returns after all -/
example : ∃ s, run 2 false init [.dcall, .dadd, .get, .block, .exec, .sigPool, .add, .put] = some s ∧ s.ok = 1 := ⟨_, rfl, rfl⟩
/-- a synchronous call -/
example : ∃ s, run 2 false init [.get, .addSync, .execSync, .sig0, .put] = some s ∧ s.ok = 1 := ⟨_, rfl, rfl⟩
example : ∃ s, run 1 true init [.get, .refuse, .putRefused] = some s ∧ s.again = 1 := ⟨_, rfl, rfl⟩

end Verif.PoolFull
