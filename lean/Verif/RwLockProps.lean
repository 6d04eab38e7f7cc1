import Verif.RwLockLive
/-
  C55, C92, C93: the raw read-write lock of include/kernel/rwlock-generic.h and lib/rwlockimpl.c.
-/
namespace Verif.RwLock

/-! ### Specification -/

/-- Thread `t` has the read lock: its rdlock, tryrdlock or downgrade took effect and its unlock has not. -/
def holdsRead (s : St) (t : Nat) : Prop := s.pc t = .holdR ∨ ∃ w, s.pc t = .wake w .toHoldR

/-- Thread `t` has the write lock. -/
def holdsWrite (s : St) (t : Nat) : Prop := s.pc t = .holdW

/-- Thread `t` is blocked in the event wait of a slow path and its event has not been signalled. -/
def parked (s : St) (t : Nat) : Prop := (s.pc t = .rBlk ∨ s.pc t = .wBlk) ∧ s.sg t = false

/-- Several steps by given threads. -/
def run (B : Int) : St → List (Nat × Act) → Option St
  | s, [] => some s
  | s, (i, a) :: l => (step B s i a).bind fun s' => run B s' l

theorem reach_run {B : Int} {n : Nat} {s s' : St} (h : Reach B n s) (l : List (Nat × Act))
    (hl : ∀ e ∈ l, e.1 < n) (hr : run B s l = some s') : Reach B n s' := by
  induction l generalizing s with
  | nil => cases hr; exact h
  | cons e l ih =>
    obtain ⟨i, a⟩ := e
    simp only [run] at hr
    cases hs : step B s i a with
    | none => simp [hs] at hr
    | some s1 =>
      simp only [hs, Option.bind_some] at hr
      exact ih (.step i a (hl (i, a) (by simp)) h hs) (fun e he => hl e (by simp [he])) hr

/-! ### C55 -/

/-- C55.  Whatever fewer than 2^32 threads do (any interleaving of lock, trylock, unlock, downgrade and
    their slow paths), a writer never holds the lock together with a reader or with another writer. -/
theorem C55_exclusion (B : Int) (n : Nat) (hn : (n : Int) < B) (s : St) (h : Reach B n s)
    (i j : Nat) (hij : j ≠ i) (hw : holdsWrite s i) : ¬ holdsWrite s j ∧ ¬ holdsRead s j := by
  have := (inv_reach hn h).ex i j hw hij
  refine ⟨this.1, fun hr => this.2 ?_⟩
  rcases hr with hr | hr
  · exact .inl hr
  · exact .inr (.inr (.inr hr))

/-- C55 on a 64-bit target, rwlock-generic.h:20. -/
theorem C55_exclusion_64 (n : Nat) (hn : n < 2 ^ 32) (s : St) (h : Reach (2 ^ 32) n s)
    (i j : Nat) (hij : j ≠ i) (hw : holdsWrite s i) : ¬ holdsWrite s j ∧ ¬ holdsRead s j :=
  C55_exclusion _ n (by omega) s h i j hij hw

/-- C55 on a 32-bit target, rwlock-generic.h:22. -/
theorem C55_exclusion_32 (n : Nat) (hn : n < 2 ^ 16) (s : St) (h : Reach (2 ^ 16) n s)
    (i j : Nat) (hij : j ≠ i) (hw : holdsWrite s i) : ¬ holdsWrite s j ∧ ¬ holdsRead s j :=
  C55_exclusion _ n (by omega) s h i j hij hw

/-- The counter stays inside intptr_t with fewer than 2^31 threads, so the unbounded integer of the model
    is faithful. -/
theorem C55_no_overflow (n : Nat) (hn : n < 2 ^ 31) (s : St) (h : Reach (2 ^ 32) n s) :
    -2 ^ 63 ≤ s.count ∧ s.count < 2 ^ 63 := by
  have hI := inv_reach (B := 2 ^ 32) (by omega) h
  have h1 := hI.cnt
  have h2 := hI.A_lt
  have h3 : sumN (wr s) n ≤ sumN (unit s) n := sumN_mono (wr_le_unit s)
  have h4 : 0 ≤ qbias s.q ∧ qbias s.q ≤ 1 := by unfold qbias; split <;> omega
  omega

/-- The hypotheses of C55 are met: thread 0 holds the write lock while thread 1 waits for the read lock and
    thread 2 for the write lock. -/
example : ∃ s, Reach (2 ^ 32) 3 s ∧ holdsWrite s 0 ∧ s.q = [(1, false), (2, true)] := by
  refine ⟨_, reach_run .init [(0, .wrlock), (1, .rdlock), (1, .run), (2, .wrlock), (2, .run), (2, .run)]
    (by decide) rfl, rfl, rfl⟩

/-- Two readers do hold the lock together: the exclusion is not a plain mutex. -/
example : ∃ s, Reach (2 ^ 32) 2 s ∧ holdsRead s 0 ∧ holdsRead s 1 :=
  ⟨_, reach_run .init [(0, .rdlock), (1, .rdlock)] (by decide) rfl, .inl rfl, .inl rfl⟩

/-! ### C92 -/

/-- C92.  No wake-up is lost: if every thread is either outside the lock (not holding it) or blocked in a
    slow path without a signal, then no thread is blocked. -/
theorem C92_no_lost_wakeup (B : Int) (n : Nat) (hn : (n : Int) < B) (s : St) (h : Reach B n s)
    (hq : ∀ t, t < n → s.pc t = .idle ∨ parked s t) : ∀ t, t < n → s.pc t = .idle := by
  have hI := inv_reach hn h
  have hL := live_reach hn h
  have hall : ∀ t, s.pc t = .idle ∨ parked s t := by
    intro t
    rcases Nat.lt_or_ge t n with h1 | h1
    · exact hq t h1
    · exact .inl (hI.out t h1)
  have hgr : ∀ t, s.gr t = false := by
    intro t
    cases hg : s.gr t
    · rfl
    · exfalso
      cases hnt : s.nt t with
      | false =>
        obtain ⟨i, l, k, -, hi⟩ := hL.l2 t hg hnt
        rcases hall i with h1 | ⟨h1 | h1, -⟩ <;> simp [h1] at hi
      | true =>
        rcases hall t with h1 | ⟨h1 | h1, h2⟩
        · have := hI.grO t hg; simp [h1, grOk] at this
        · rcases hL.l3 t hnt h1 with h3 | ⟨i, l, k, hi⟩
          · simp [h2] at h3
          · rcases hall i with h1 | ⟨h1 | h1, -⟩ <;> simp [h1] at hi
        · have := hI.grO t hg; simp [h1, grOk] at this
  have hqe : s.q = [] := by
    rcases Classical.em (s.q = []) with h1 | h1
    · exact h1
    · exfalso
      rcases hL.l1 h1 with h2 | ⟨i, h2⟩ | ⟨t, h2⟩
      · apply h2
        rw [act_mod hn hI]
        have : sumN (unit s) n = sumN (fun _ => 0) n := by
          refine sumN_congr (fun j _ => ?_)
          rcases hall j with h3 | ⟨h3 | h3, -⟩ <;> simp [unit, h3, unitPc, hgr]
        rw [this, sumN_const]; rfl
      · rcases hall i with h3 | ⟨h3 | h3, -⟩ <;> simp [h3, waking] at h2
      · rcases hall t with h3 | ⟨h3 | h3, h4⟩ <;> simp [trying, h3] at h2
        simp [h4] at h2
  intro t _
  rcases hall t with h1 | ⟨h1 | h1, -⟩
  · exact h1
  · have := (hI.qr t).mpr ⟨by rw [h1]; rfl, hgr t⟩; simp [hqe] at this
  · have := (hI.qw t).mpr (by rw [h1]; rfl); simp [hqe] at this

/-- A blocked thread with a holder: the case C92 excludes is only the one without any holder. -/
example : ∃ s, Reach (2 ^ 32) 2 s ∧ holdsWrite s 0 ∧ parked s 1 :=
  ⟨_, reach_run .init [(0, .wrlock), (1, .rdlock), (1, .run), (1, .run)] (by decide) rfl, rfl, .inl rfl, rfl⟩

/-- The same two threads until the reader got the lock; a writer then waits and gets it after the unlock. -/
example : ∃ s, Reach (2 ^ 32) 3 s ∧ holdsWrite s 2 :=
  ⟨_, reach_run .init [(0, .wrlock), (1, .rdlock), (1, .run), (1, .run), (2, .wrlock), (2, .run), (2, .run),
    (0, .wrunlock), (0, .run), (0, .run), (0, .run), (0, .run), (0, .run), (0, .run), (0, .run),
    (1, .run), (1, .run), (1, .rdunlock), (1, .run), (1, .run), (2, .run), (2, .run), (2, .run)]
    (by decide) rfl, rfl⟩

/-! ### C93 -/

/-- C93 is false: `__rwlock_do_wake` clears `waiter->event` and then pulses the event, but the reader may
    see the NULL, return and destroy the event (it is on its stack) in between. -/
theorem C93_uaf : ∃ s, Reach (2 ^ 32) 2 s ∧ s.ub = true :=
  ⟨_, reach_run .init [(0, .wrlock), (1, .rdlock), (1, .run), (0, .wrunlock), (0, .run), (0, .run), (0, .run),
    (0, .run), (0, .run), (1, .run), (0, .run)] (by decide) rfl, rfl⟩

/-- The event a waker signals for a waiting writer is alive: the writer is still inside its slow path. -/
theorem C93_writer_partial (B : Int) (n : Nat) (hn : (n : Int) < B) (s : St) (h : Reach B n s) (i : Nat)
    (w : Wake) (k : Cont) (t : Nat) (l : List (Nat × Bool)) (hi : s.pc i = .wake (.start w) k)
    (hq : s.q = (t, true) :: l) :
    (∃ c, s.pc t = .wLoop c) ∨ s.pc t = .wBlk ∨ s.pc t = .wRelock ∨ ∃ v c, s.pc t = .wake v (.toWLoop c) := by
  have hI := inv_reach hn h
  have := (hI.qw t).mp (by rw [hq]; simp)
  revert this
  cases s.pc t <;> simp [inW]
  rename_i w k; cases k <;> simp [inW]

/-- The runs in which a reader is granted the lock only while it is blocked in its event wait (or by itself)
    and no wait returns without a pulse. -/
inductive ReachB (B : Int) (n : Nat) : St → Prop where
  | init : ReachB B n St.init
  | step {s s' : St} (i : Nat) (a : Act) (hi : i < n) (h : ReachB B n s)
      (hns : a ≠ .spurious)
      (hb : ∀ t l k, s.pc i = .wake (.notify (t :: l)) k → t = i ∨ (s.pc t = .rBlk ∧ s.sg t = false))
      (hs : step B s i a = some s') : ReachB B n s'

theorem ReachB.reach {B : Int} {n : Nat} {s : St} (h : ReachB B n s) : Reach B n s := by
  induction h with
  | init => exact .init
  | step i a hi _ _ _ hs ih => exact .step i a hi ih hs

def pulseOk (s : St) (i : Nat) : Prop :=
  ∀ t g l k, s.pc i = .wake (.pulse t g l) k → s.gen t = g ∧ (t = i ∨ (s.pc t = .rBlk ∧ s.sg t = false))

/-- A thread other than `i` between notify and pulse cannot exist while `i` works in the critical section. -/
theorem pulse_other {B : Int} {n : Nat} {s s' : St} (hI : Inv B n s) {i a : Nat} {act : Act}
    (hpo : ∀ i, pulseOk s i) (hs : step B s i act = some s') (hns : act ≠ .spurious) (hai : a ≠ i)
    (hpa : s'.pc a = s.pc a) : pulseOk s' a := by
  intro t g l k hp
  rw [hpa] at hp
  obtain ⟨h1, h2⟩ := hpo a t g l k hp
  have hlk : s.lk = some a := (hI.lkcs a).mpr (by rw [hp]; rfl)
  have hcs : cs (s.pc i) = false := by
    cases hc : cs (s.pc i)
    · rfl
    · have := (hI.lkcs i).mpr hc; rw [hlk] at this; simp at this; exact absurd this hai
  have key : s'.gen = s.gen ∧ (∀ t, t ≠ i → s'.sg t = s.sg t ∧ s'.pc t = s.pc t) ∨ s.pc i = .rChk := by
    unfold step at hs
    split at hs
    · simp at hs
    split at hs
    all_goals first
      | contradiction
      | (rename_i hpc; exact .inr hpc)
      | (exfalso; rename_i hpc; rw [hpc] at hcs; simp [cs] at hcs; done)
      | (left; split at hs <;> cases hs <;> refine ⟨rfl, fun t ht => ?_⟩ <;> simp [St.setpc, upd, ht]; done)
      | (exfalso; rw [hlk] at hs; simp at hs; done)
      | (exfalso; exact hns rfl)
      | skip
    rename_i w k' hpc
    cases w with
    | pend w => exfalso; simp only [stepWake, hlk] at hs; simp at hs
    | _ => rw [hpc] at hcs; simp [cs] at hcs
  have hti : t ≠ i ∨ (t = i ∧ s.pc i = .rBlk ∧ s.sg i = false) := by
    by_cases hti : t = i
    · right
      subst hti
      rcases h2 with h2 | h2
      · exact absurd h2.symm hai
      · exact ⟨rfl, h2⟩
    · exact .inl hti
  rcases hti with hti | ⟨rfl, hb, hsg⟩
  · rcases key with ⟨k1, k2⟩ | hpc
    · refine ⟨by rw [k1]; exact h1, ?_⟩
      rw [(k2 t hti).1, (k2 t hti).2]; exact h2
    · have : s'.gen t = s.gen t ∧ s'.sg t = s.sg t ∧ s'.pc t = s.pc t := by
        simp only [step, hpc] at hs
        split at hs
        · simp at hs
        cases act <;> simp only at hs <;> try contradiction
        split at hs <;> cases hs <;> simp [St.setpc, upd, hti]
      rw [this.1, this.2.1, this.2.2]; exact ⟨h1, h2⟩
  · exfalso
    simp only [step, hb] at hs
    split at hs
    · simp at hs
    cases act <;> simp only [hsg] at hs <;> simp at hs
    exact hns rfl

theorem finish_ub (s : St) (i : Nat) (k : Cont) : (s.finish i k).ub = s.ub := by cases k <;> rfl

theorem finish_pc_self (s : St) (i : Nat) (k : Cont) (t g : Nat) (l : List Nat) (k' : Cont) :
    (s.finish i k).pc i ≠ .wake (.pulse t g l) k' := by
  cases k <;> simp [St.finish, St.setpc, St.release, upd]

theorem finish_pc_other (s : St) (i a : Nat) (k : Cont) (h : a ≠ i) : (s.finish i k).pc a = s.pc a := by
  cases k <;> simp [St.finish, St.setpc, St.release, upd, h]

/-- What a step of `i` can do to `ub` and to the program positions. -/
theorem step_shape {B : Int} {s s' : St} {i : Nat} {a : Act} (hs : step B s i a = some s') :
    (∀ j, j ≠ i → s'.pc j = s.pc j) ∧
    ((∃ t g l k, s.pc i = .wake (.pulse t g l) k ∧ (s.gen t ≠ g ∨ s'.ub = false) ∧
        (s'.ub = false → ∀ t' g' l' k', s'.pc i ≠ .wake (.pulse t' g' l') k')) ∨
     (∃ t l k, s.pc i = .wake (.notify (t :: l)) k ∧ s'.ub = false ∧ s'.gen = s.gen ∧ s'.sg = s.sg ∧
        s'.pc i = .wake (.pulse t (s.gen t) l) k) ∨
     (s'.ub = false ∧ ∀ t g l k, s'.pc i ≠ .wake (.pulse t g l) k)) := by
  unfold step at hs
  split at hs
  · simp at hs
  rename_i hub
  have hub : s.ub = false := by simpa using hub
  split at hs
  case h_17 w k hpc =>
    cases w with
    | pulse t g l =>
      simp only [stepWake] at hs
      split at hs <;> cases hs
      · refine ⟨fun j hj => by simp [St.setpc, upd, hj], .inl ⟨t, g, l, k, hpc, .inr hub, ?_⟩⟩
        simp [St.setpc, upd]
      · rename_i hg
        exact ⟨fun j hj => rfl, .inl ⟨t, g, l, k, hpc, .inl hg, by simp⟩⟩
    | notify l =>
      cases l with
      | nil =>
        simp only [stepWake] at hs; cases hs
        exact ⟨fun j hj => finish_pc_other _ _ _ _ hj, .inr (.inr ⟨by rw [finish_ub]; exact hub, finish_pc_self _ _ _⟩)⟩
      | cons t l =>
        simp only [stepWake] at hs; cases hs
        exact ⟨fun j hj => by simp [upd, hj], .inr (.inl ⟨t, l, k, hpc, hub, rfl, rfl, by simp [upd]⟩)⟩
    | pend w =>
      simp only [stepWake] at hs
      split at hs
      · simp at hs
      split at hs <;> cases hs
      · exact ⟨fun j hj => finish_pc_other _ _ _ _ hj, .inr (.inr ⟨by rw [finish_ub]; exact hub, finish_pc_self _ _ _⟩)⟩
      · exact ⟨fun j hj => by simp [St.setpc, upd, hj], .inr (.inr ⟨hub, by simp [St.setpc, upd]⟩)⟩
    | start w =>
      simp only [stepWake] at hs
      split at hs
      · simp at hs
      · split at hs <;> cases hs
        all_goals exact ⟨fun j hj => finish_pc_other _ _ _ _ hj, .inr (.inr ⟨by rw [finish_ub]; exact hub, finish_pc_self _ _ _⟩)⟩
      · split at hs <;> cases hs
        all_goals exact ⟨fun j hj => by simp [St.setpc, upd, hj], .inr (.inr ⟨hub, by simp [St.setpc, upd]⟩)⟩
    | try_ =>
      simp only [stepWake] at hs
      split at hs <;> cases hs
      all_goals exact ⟨fun j hj => by simp [St.setpc, upd, hj], .inr (.inr ⟨hub, by simp [St.setpc, upd]⟩)⟩
    | undo =>
      simp only [stepWake] at hs
      split at hs <;> cases hs
      · exact ⟨fun j hj => finish_pc_other _ _ _ _ hj, .inr (.inr ⟨by rw [finish_ub]; exact hub, finish_pc_self _ _ _⟩)⟩
      · exact ⟨fun j hj => by simp [St.setpc, upd, hj], .inr (.inr ⟨hub, by simp [St.setpc, upd]⟩)⟩
    | grant b =>
      simp only [stepWake] at hs; cases hs
      exact ⟨fun j hj => by simp [upd, hj], .inr (.inr ⟨hub, by simp [upd]⟩)⟩
  all_goals (try contradiction)
  all_goals (try dsimp only at hs)
  case h_8 | h_12 =>
    generalize (if s.q = [] then _ else _ : Int) = adj at hs
    split at hs
    · simp at hs
    split at hs <;> cases hs
    all_goals exact ⟨fun j hj => by simp [St.setpc, St.release, upd, hj],
      .inr (.inr ⟨hub, by simp [St.setpc, St.release, upd]⟩)⟩
  all_goals (try (split at hs))
  all_goals (try contradiction)
  all_goals cases hs
  all_goals refine ⟨fun j hj => ?_, .inr (.inr ⟨hub, fun t g l k => ?_⟩)⟩
  all_goals first
    | rfl
    | simp [St.setpc, St.release, upd, hj]; done
    | simp [St.setpc, St.release, upd]; done
    | simp_all

/-- C93, the part that holds: in those runs no destroyed event is used. -/
theorem C93_partial (B : Int) (n : Nat) (hn : (n : Int) < B) (s : St) (h : ReachB B n s) : s.ub = false := by
  have : s.ub = false ∧ ∀ i, pulseOk s i := by
    induction h with
    | init => refine ⟨rfl, fun i => ?_⟩; intro t g l k hp; simp [St.init] at hp
    | @step s s' i a hi h hns hb hs ih =>
      have hI := inv_reach hn h.reach
      obtain ⟨hub, hpo⟩ := ih
      obtain ⟨hf, hsh⟩ := step_shape hs
      have hub' : s'.ub = false := by
        rcases hsh with ⟨t, g, l, k, hp, h1, -⟩ | ⟨t, l, k, -, h1, -⟩ | ⟨h1, -⟩
        · rcases h1 with h1 | h1
          · exact absurd (hpo i t g l k hp).1 h1
          · exact h1
        · exact h1
        · exact h1
      refine ⟨hub', fun j => ?_⟩
      by_cases hj : j = i
      · subst hj
        rcases hsh with ⟨t, g, l, k, hp, -, h1⟩ | ⟨t, l, k, hp, -, hg, hsg, h1⟩ | ⟨-, h1⟩
        · intro t' g' l' k' hp'; exact absurd hp' (h1 hub' t' g' l' k')
        · intro t' g' l' k' hp'
          rw [h1] at hp'
          cases hp'
          refine ⟨by rw [hg], ?_⟩
          rcases hb t l k hp with h2 | h2
          · exact .inl h2
          · by_cases htj : t = j
            · exact .inl htj
            · rw [hsg, hf t htj]; exact .inr h2
        · intro t' g' l' k' hp'; exact absurd hp' (h1 t' g' l' k')
      · exact pulse_other hI hpo hs hns hj (hf j hj)
  exact this.1

/-- A run of this kind in which a blocked reader is woken by the unlock of a writer. -/
example : ∃ s, ReachB (2 ^ 32) 2 s ∧ (∃ l, s.pc 0 = .wake (.pulse 1 0 l) .toIdle) := by
  have h0 : ReachB (2 ^ 32) 2 St.init := .init
  have st : ∀ {s s' : St} (i : Nat) (a : Act), ReachB (2 ^ 32) 2 s → i < 2 → a ≠ .spurious →
      (∀ t l k, s.pc i = .wake (.notify (t :: l)) k → t = i ∨ (s.pc t = .rBlk ∧ s.sg t = false)) →
      step (2 ^ 32) s i a = some s' → ReachB (2 ^ 32) 2 s' := fun i a h hi ha hb hs => .step i a hi h ha hb hs
  refine ⟨_, st 0 .run (st 0 .run (st 0 .run (st 0 .run (st 0 .run (st 0 .wrunlock (st 1 .run (st 1 .run
    (st 1 .rdlock (st 0 .wrlock h0 (by decide) (by decide) ?_ rfl) (by decide) (by decide) ?_ rfl)
    (by decide) (by decide) ?_ rfl) (by decide) (by decide) ?_ rfl) (by decide) (by decide) ?_ rfl)
    (by decide) (by decide) ?_ rfl) (by decide) (by decide) ?_ rfl) (by decide) (by decide) ?_ rfl)
    (by decide) (by decide) ?_ rfl) (by decide) (by decide) ?_ rfl, ⟨_, rfl⟩⟩
  all_goals first | (intro t l k h; cases h; exact .inr ⟨rfl, rfl⟩) | nofun

/-- C92 for a downgrade: the readers queued in front of the first queued writer are let in by it.  The writer needs the list's mutex once; three steps later all of them have the read lock. -/
theorem C92_downgrade (B : Int) (n : Nat) (hn : (n : Int) < B) (s : St) (h : Reach B n s) (i : Nat) (hi : s.pc i = .holdW) (hl : s.lk = none)
    (hu : s.ub = false) (t : Nat) (ht : t ∈ leading s.q) :
    ∃ s', run B s [(i, .downgrade), (i, .run), (i, .run), (i, .run)] = some s' ∧ s'.gr t = true ∧ ∀ e ∈ s'.q, e.1 ≠ t := by
  have hI := inv_reach hn h
  obtain ⟨hd, tl, hq⟩ : ∃ hd tl, s.q = (hd, false) :: tl := by
    cases hq : s.q with
    | nil => simp [hq, leading] at ht
    | cons e tl =>
      obtain ⟨a, b⟩ := e
      cases b
      · exact ⟨a, tl, rfl⟩
      · simp [hq, leading] at ht
  have hin : i < n := by
    rcases Nat.lt_or_ge i n with h1 | h1
    · exact h1
    · have := hI.out i h1; rw [hi] at this; cases this
  have hA : (sumN (unit s) n : Int) ≤ n := by have := hI.A_lt; omega
  have hW : 1 ≤ sumN (wr s) n := sumN_pos hin (by simp [wr, hi, wrPc])
  have hc : s.count + B < 0 := by
    rw [hI.cnt]
    have : qbias s.q = 1 := by simp [qbias, hq]
    rw [this]
    have e : B * ((sumN (wr s) n : Int) + 1) = B * ((sumN (wr s) n : Int) - 1) + 2 * B := by
      rw [show ((sumN (wr s) n : Int) + 1) = ((sumN (wr s) n : Int) - 1) + 2 by omega, Int.mul_add]; omega
    have : 0 ≤ B * ((sumN (wr s) n : Int) - 1) := Int.mul_nonneg (by omega) (by omega)
    omega
  have hnd : ∀ e ∈ rest s.q, e.1 ≠ t := by
    intro e he het
    have h1 := leading_rest s.q
    have h2 := hI.qnd
    rw [← h1, List.nodup_append] at h2
    exact h2.2.2 t ht e.1 (List.mem_map.2 ⟨e, he, rfl⟩) het.symm
  have e1 : step B s i .downgrade = some ({ s with count := s.count + B }.setpc i (.wake (.pend .readOwned) .toHoldR)) := by
    simp [step, hu, hi, hc]
  generalize hs1 : ({ s with count := s.count + B }.setpc i (.wake (.pend .readOwned) .toHoldR)) = s1 at e1
  have a1 : s1.q = s.q ∧ s1.lk = none ∧ s1.ub = false ∧ s1.pc i = .wake (.pend .readOwned) .toHoldR := by
    subst hs1; simp [St.setpc, upd, hl, hu]
  have e2 : step B s1 i .run = some ({ s1 with lk := some i }.setpc i (.wake (.start .readOwned) .toHoldR)) := by
    simp [step, a1, stepWake, hq]
  generalize hs2 : ({ s1 with lk := some i }.setpc i (.wake (.start .readOwned) .toHoldR)) = s2 at e2
  have a2 : s2.q = s.q ∧ s2.ub = false ∧ s2.pc i = .wake (.start .readOwned) .toHoldR := by
    subst hs2; simp [St.setpc, upd, a1]
  have e3 : step B s2 i .run = some (s2.setpc i (.wake (.grant false) .toHoldR)) := by
    simp [step, a2, stepWake, hq]
  generalize hs3 : (s2.setpc i (.wake (.grant false) .toHoldR)) = s3 at e3
  have a3 : s3.q = s.q ∧ s3.ub = false ∧ s3.pc i = .wake (.grant false) .toHoldR := by
    subst hs3; simp [St.setpc, upd, a2]
  have e4 : ∃ s4, step B s3 i .run = some s4 ∧ s4.q = rest s.q ∧ s4.gr t = true := by
    simp only [step, a3, stepWake, Bool.false_eq_true, if_false]
    exact ⟨_, rfl, rfl, by simp [ht]⟩
  obtain ⟨s4, h4, h5, h6⟩ := e4
  refine ⟨s4, ?_, h6, by rw [h5]; exact hnd⟩
  simp [run, e1, e2, e3, h4]

/-- A writer with two readers and another writer queued behind it. -/
example : ∃ s, Reach (2 ^ 32) 4 s ∧ s.pc 0 = .holdW ∧ s.lk = none ∧ s.ub = false ∧ leading s.q = [1, 2] :=
  ⟨_, reach_run .init [(0, .wrlock), (1, .rdlock), (1, .run), (2, .rdlock), (2, .run), (3, .wrlock), (3, .run), (3, .run)] (by decide) rfl, rfl, rfl, rfl, rfl⟩

end Verif.RwLock
