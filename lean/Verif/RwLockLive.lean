import Verif.RwLockInv
/-
  The wake-up invariant of the read-write lock model.  Helper module: the properties are in RwLockProps.lean.
-/
namespace Verif.RwLock

/-- For the statements and proofs about the models imported; models no code of its own. -/
def waking : PC → Bool
  | .wake (.pend .any) _ => true
  | .wake (.start .any) _ => true
  | .wake .try_ _ => true
  | _ => false

/-- A waiting writer that will try to take the lock. Models no code of its own. -/
def trying (B : Int) (s : St) (t : Nat) : Prop :=
  (∃ c, s.pc t = .wLoop c ∧ c % B = 0) ∨ s.pc t = .wRelock ∨ (s.pc t = .wBlk ∧ s.sg t = true)

/-- For the statements and proofs about the models imported; models no code of its own. -/
def inNotify (s : St) (t : Nat) : Prop :=
  ∃ i l k, t ∈ l ∧ (s.pc i = .wake (.notify l) k ∨ ∃ u g, s.pc i = .wake (.pulse u g l) k)

/-- For the statements and proofs about the models imported; models no code of its own. -/
structure Live (B : Int) (s : St) : Prop where
  l1 : s.q ≠ [] → s.count % B ≠ 0 ∨ (∃ i, waking (s.pc i) = true) ∨ ∃ t, trying B s t
  l2 : ∀ t, s.gr t = true → s.nt t = false → inNotify s t
  l3 : ∀ t, s.nt t = true → s.pc t = .rBlk →
    s.sg t = true ∨ ∃ i l k, s.pc i = .wake (.pulse t (s.gen t) l) k

theorem live_init (B : Int) : Live B St.init := by
  constructor <;> simp [St.init]

theorem act_mod {B : Int} {n : Nat} {s : St} (hB : (n : Int) < B) (h : Inv B n s) :
    s.count % B = sumN (unit s) n := by
  have := h.A_lt
  exact ar_mod (by omega) h.cnt

theorem act_of_unit {B : Int} {n t : Nat} {s : St} (hB : (n : Int) < B) (h : Inv B n s) (ht : 0 < unit s t) :
    s.count % B ≠ 0 := by
  rw [act_mod hB h]
  have hn : t < n := by
    rcases Nat.lt_or_ge t n with h1 | h1
    · exact h1
    · have hp := h.out t h1
      have : s.gr t = false := by
        cases hg : s.gr t
        · rfl
        · have := h.grR t hg; simp [hp, inR] at this
      simp [unit, hp, unitPc, this] at ht
  have := sumN_pos hn ht
  omega

theorem sumN_mono {f g : Nat → Nat} {n : Nat} (h : ∀ j, f j ≤ g j) : sumN f n ≤ sumN g n := by
  induction n with
  | zero => simp [sumN]
  | succ n ih => have := h n; simp only [sumN]; omega

/-- With waiters and nobody active, `count` is exactly the waiting bias. -/
theorem count_idle {B : Int} {n : Nat} {s : St} (hB : (n : Int) < B) (h : Inv B n s) (hq : s.q ≠ [])
    (hc : s.count % B = 0) : s.count = -B := by
  have h1 := act_mod hB h
  have h2 : sumN (wr s) n ≤ sumN (unit s) n := sumN_mono (wr_le_unit s)
  have h3 : sumN (unit s) n = 0 := by omega
  have h4 : sumN (wr s) n = 0 := by omega
  have := h.cnt
  rw [h3, h4] at this
  simpa [qbias, hq] using this

theorem unit_holdR {s : St} {i : Nat} {w} (h : s.pc i = .wake w .toHoldR) : 0 < unit s i := by
  simp only [unit, h, unitPc]; omega

/-- Frame rule for `Live`: thread `i` moves from `p` to `p'`, nothing given to waiters changes. -/
theorem live_frame {B : Int} {i : Nat} {s s' : St} (h : Live B s) {p' : PC}
    (hp : s'.pc = upd s.pc i p') (hg : s'.gr = s.gr) (hn : s'.nt = s.nt) (hgen : s'.gen = s.gen)
    (hsg : ∀ j, j ≠ i → s.sg j = true → s'.sg j = true)
    (hrel : ∀ w k, s.pc i = .wake w k → (∀ l, w ≠ .notify l ∨ l = []) ∧ ∀ t g l, w ≠ .pulse t g l)
    (hblk : p' = .rBlk → s.nt i = false)
    (h1 : s'.q ≠ [] → s'.count % B ≠ 0 ∨ (∃ i, waking (s'.pc i) = true) ∨ ∃ t, trying B s' t) :
    Live B s' := by
  constructor
  · exact h1
  · intro t ht hnt
    rw [hg] at ht; rw [hn] at hnt
    obtain ⟨a, l, k, hm, ha⟩ := h.l2 t ht hnt
    have hai : a ≠ i := by
      intro hh; subst hh
      rcases ha with ha | ⟨u, g, ha⟩
      · have := (hrel _ _ ha).1 l
        rcases this with h2 | h2
        · exact h2 rfl
        · subst h2; simp at hm
      · exact (hrel _ _ ha).2 _ _ _ rfl
    exact ⟨a, l, k, hm, by simpa [hp, upd, hai] using ha⟩
  · intro t ht hb
    rw [hn] at ht
    by_cases hti : t = i
    · subst hti
      rw [hp] at hb; simp only [upd, if_true] at hb
      have := hblk hb; simp [this] at ht
    · rw [hp] at hb; simp only [upd, hti, if_false] at hb
      rcases h.l3 t ht hb with h2 | ⟨a, l, k, ha⟩
      · exact .inl (hsg t hti h2)
      · have hai : a ≠ i := by
          intro hh; subst hh; exact (hrel _ _ ha).2 _ _ _ rfl
        refine .inr ⟨a, l, k, ?_⟩
        rw [hgen]; simpa [hp, upd, hai] using ha

/-- The first clause when neither `count` nor the pulses of others change. -/
theorem l1_frame {B : Int} {i : Nat} {s s' : St} (h : Live B s) {p' : PC}
    (hp : s'.pc = upd s.pc i p') (hq : s'.q = s.q) (hc : s'.count = s.count)
    (hsg : ∀ j, j ≠ i → s.sg j = true → s'.sg j = true)
    (hw : waking (s.pc i) = true ∨ trying B s i → s'.count % B ≠ 0 ∨ waking p' = true ∨ trying B s' i) :
    s'.q ≠ [] → s'.count % B ≠ 0 ∨ (∃ i, waking (s'.pc i) = true) ∨ ∃ t, trying B s' t := by
  intro hne
  rw [hq] at hne
  have hw' : waking (s.pc i) = true ∨ trying B s i →
      s'.count % B ≠ 0 ∨ (∃ i, waking (s'.pc i) = true) ∨ ∃ t, trying B s' t := by
    intro hh
    rcases hw hh with h2 | h2 | h2
    · exact .inl h2
    · exact .inr (.inl ⟨i, by simpa [hp, upd] using h2⟩)
    · exact .inr (.inr ⟨i, h2⟩)
  rcases h.l1 hne with h2 | ⟨a, ha⟩ | ⟨t, ht⟩
  · left; rw [hc]; exact h2
  · by_cases hai : a = i
    · subst hai; exact hw' (.inl ha)
    · exact .inr (.inl ⟨a, by simpa [hp, upd, hai] using ha⟩)
  · by_cases hti : t = i
    · subst hti; exact hw' (.inr ht)
    · refine .inr (.inr ⟨t, ?_⟩)
      unfold trying at ht ⊢
      rw [hp]; simp only [upd, hti, if_false]
      rcases ht with h2 | h2 | h2
      · exact .inl h2
      · exact .inr (.inl h2)
      · exact .inr (.inr ⟨h2.1, hsg t hti h2.2⟩)


theorem live_of_unit {B : Int} {n i : Nat} {s s' : St} (hB : (n : Int) < B) (h : Live B s) (hI' : Inv B n s')
    {p p' : PC} (hpc : s.pc i = p)
    (hp : s'.pc = upd s.pc i p') (hg : s'.gr = s.gr) (hn : s'.nt = s.nt) (hgen : s'.gen = s.gen)
    (hsg : ∀ j, j ≠ i → s.sg j = true → s'.sg j = true)
    (hrel : ∀ w k, p = .wake w k → (∀ l, w ≠ .notify l ∨ l = []) ∧ ∀ t g l, w ≠ .pulse t g l)
    (hblk : p' = .rBlk → s.nt i = false) (hu : 0 < unitPc p') : Live B s' := by
  subst hpc
  refine live_frame h hp hg hn hgen hsg hrel hblk (fun _ => .inl ?_)
  refine act_of_unit (t := i) hB hI' ?_
  simp only [unit, hp, upd, if_true]; omega

theorem live_idle {B : Int} {n i : Nat} {s s' : St} {a : Act} (hB : (n : Int) < B) (h : Live B s)
    (hI' : Inv B n s') (hpc : s.pc i = .idle) (hs : step B s i a = some s') : Live B s' := by
  simp only [step, hpc] at hs
  split at hs
  · simp at hs
  cases a <;> simp only at hs <;> try contradiction
  all_goals (split at hs <;> cases hs)
  all_goals first
    | exact h
    | exact live_of_unit hB h hI' hpc rfl rfl rfl rfl (fun _ _ hh => hh) (by simp) (by simp) (by simp [unitPc])

theorem live_hold {B : Int} {n i : Nat} {s s' : St} {a : Act} (hB : (n : Int) < B) (hi : i < n) (h : Live B s)
    (hI' : Inv B n s') (hpc : s.pc i = .holdR ∨ s.pc i = .holdW) (hs : step B s i a = some s') : Live B s' := by
  have hB2 : 2 ≤ B := by omega
  have hidle : s'.q ≠ [] → s'.count % B = 0 → s'.count = -B := count_idle hB hI'
  rcases hpc with hpc | hpc <;> simp only [step, hpc] at hs <;> (split at hs; · simp at hs) <;>
    cases a <;> simp only at hs <;> try contradiction
  · split at hs <;> cases hs
    · refine live_frame h rfl rfl rfl rfl (fun _ _ hh => hh) (by simp [hpc]) (by simp) (fun _ => ?_)
      exact .inr (.inl ⟨i, by simp [St.setpc, upd, waking]⟩)
    · rename_i hc
      refine live_frame h rfl rfl rfl rfl (fun _ _ hh => hh) (by simp [hpc]) (by simp) (fun hq => .inl fun hm => ?_)
      have := hidle hq hm
      simp only [St.setpc] at this hm
      exact hc ⟨by omega, hm⟩
  · split at hs <;> cases hs
    · refine live_frame h rfl rfl rfl rfl (fun _ _ hh => hh) (by simp [hpc]) (by simp) (fun _ => ?_)
      exact .inr (.inl ⟨i, by simp [St.setpc, upd, waking]⟩)
    · rename_i hc
      refine live_frame h rfl rfl rfl rfl (fun _ _ hh => hh) (by simp [hpc]) (by simp) (fun hq => .inl fun hm => ?_)
      have := hidle hq hm
      simp only [St.setpc] at this hm
      omega
  · split at hs <;> cases hs
    all_goals exact live_of_unit hB h hI' hpc rfl rfl rfl rfl (fun _ _ hh => hh) (by simp) (by simp) (by simp [unitPc])

/-- Return from do_wake with an intact first clause. -/
theorem live_finish {B : Int} {i : Nat} {s s0 : St} {w : WSt} {k : Cont} (h : Live B s)
    (hpc : s.pc i = .wake w k)
    (h0 : s0.pc = s.pc ∧ s0.gr = s.gr ∧ s0.nt = s.nt ∧ s0.gen = s.gen)
    (hsg : ∀ j, j ≠ i → s.sg j = true → s0.sg j = true)
    (hrel : (∀ l, w ≠ .notify l ∨ l = []) ∧ ∀ t g l, w ≠ .pulse t g l)
    (h1 : (s0.finish i k).q ≠ [] → (s0.finish i k).count % B ≠ 0 ∨
      (∃ j, waking ((s0.finish i k).pc j) = true) ∨ ∃ t, trying B (s0.finish i k) t) :
    Live B (s0.finish i k) := by
  obtain ⟨e1, e2, e3, e4⟩ := h0
  have hrel' : ∀ w' k', s.pc i = .wake w' k' → (∀ l, w' ≠ .notify l ∨ l = []) ∧ ∀ t g l, w' ≠ .pulse t g l := by
    intro w' k' hh; rw [hpc] at hh; cases hh; exact hrel
  cases k with
  | toIdle => exact live_frame h (p' := .idle) (by simp [St.finish, St.setpc, St.release, e1]) e2 e3 e4 hsg hrel' (by simp) h1
  | toHoldR => exact live_frame h (p' := .holdR) (by simp [St.finish, St.setpc, St.release, e1]) e2 e3 e4 hsg hrel' (by simp) h1
  | toRWait => exact live_frame h (p' := .rChk) (by simp [St.finish, St.setpc, St.release, e1]) e2 e3 e4 hsg hrel' (by simp) h1
  | toWLoop c => exact live_frame h (p' := .wLoop c) (by simp [St.finish, St.setpc, e1]) e2 e3 e4 hsg hrel' (by simp) h1

theorem finish_pc (s : St) (i : Nat) (k : Cont) :
    ∃ p', (s.finish i k).pc = upd s.pc i p' := by
  cases k <;> exact ⟨_, rfl⟩

theorem finish_q (s : St) (i : Nat) (k : Cont) : (s.finish i k).q = s.q := by cases k <;> rfl
theorem finish_count (s : St) (i : Nat) (k : Cont) : (s.finish i k).count = s.count := by cases k <;> rfl
theorem finish_sg (s : St) (i : Nat) (k : Cont) : (s.finish i k).sg = s.sg := by cases k <;> rfl

theorem live_wake {B : Int} {n i : Nat} {s s' : St} {w : WSt} {k : Cont} (hB : (n : Int) < B)
    (hI : Inv B n s) (h : Live B s) (hI' : Inv B n s')
    (hpc : s.pc i = .wake w k) (hs : stepWake B s i k w = some s') : Live B s' := by
  have hwf := hI.wf i
  have hone : cs (.wake w k) = true → ∀ j, j ≠ i → cs (s.pc j) = false := by
    intro hcs j hj
    have h1 := hI.lkcs i; have h2 := hI.lkcs j
    rw [hpc] at h1
    have : s.lk = some i := h1.mpr hcs
    cases hc : cs (s.pc j)
    · rfl
    · have := h2.mpr hc; grind
  rw [hpc] at hwf
  cases w with
  | pend w =>
    simp only [stepWake] at hs
    split at hs
    · simp at hs
    split at hs <;> cases hs
    · rename_i hq
      refine live_finish h hpc ⟨rfl, rfl, rfl, rfl⟩ (fun _ _ hh => hh) (by simp) ?_
      intro hne; rw [finish_q] at hne; exact absurd hq hne
    · rename_i hq
      simp only [wfPc] at hwf
      rcases hwf with ⟨rfl, rfl⟩ | ⟨rfl, rfl⟩
      · refine live_frame h rfl rfl rfl rfl (fun _ _ hh => hh) (by rw [hpc]; simp) (by simp) (fun _ => ?_)
        exact .inr (.inl ⟨i, by simp [St.setpc, upd, waking]⟩)
      · exact live_of_unit hB h hI' hpc rfl rfl rfl rfl (fun _ _ hh => hh) (by simp) (by simp) (by simp [unitPc])
  | start w =>
    simp only [stepWake] at hs
    simp only [wfPc] at hwf
    split at hs
    · simp at hs
    · rename_i t l hq
      have htq : (t, true) ∈ s.q := by rw [hq]; simp
      have htW := (hI.qw t).mp htq
      split at hs <;> cases hs
      · rename_i hw
        refine live_finish h hpc ⟨rfl, rfl, rfl, rfl⟩ ?_ (by simp) ?_
        · intro j hj hh; simp only [upd]; split <;> simp [hh]
        · intro _; right; right
          have hti : t ≠ i := by
            intro hh; subst hh
            rw [hpc] at htW
            cases k <;> simp [inW] at htW
            have := hwf.2.2.mpr ⟨_, rfl⟩
            rw [hw] at this; simp at this
          have hcs := hone rfl t hti
          refine ⟨t, ?_⟩
          obtain ⟨p', hp'⟩ := finish_pc { s with sg := upd s.sg t true } i k
          unfold trying
          rw [hp', finish_sg]
          simp only [upd, hti, if_false, if_true]
          have hwft := hI.wf t
          revert hcs htW hwft
          cases s.pc t <;> simp [inW, cs]
          rename_i w' k'; cases k' <;> cases w' <;> simp [inW, cs, wfPc]
      · rename_i hw
        refine live_finish h hpc ⟨rfl, rfl, rfl, rfl⟩ (fun _ _ hh => hh) (by simp) ?_
        obtain ⟨p', hp'⟩ := finish_pc s i k
        refine l1_frame h hp' (finish_q ..) (finish_count ..) (by rw [finish_sg]; exact fun _ _ hh => hh) ?_
        rintro (hh | hh)
        · rw [hpc] at hh; cases w <;> simp [waking] at hh hw
        · simp [trying, hpc] at hh
    · split at hs <;> cases hs
      · rename_i hw
        have hk := hwf.2.1.mp hw
        subst hk
        exact live_of_unit hB h hI' hpc rfl rfl rfl rfl (fun _ _ hh => hh) (by simp) (by simp) (by simp [unitPc])
      · refine live_frame h rfl rfl rfl rfl (fun _ _ hh => hh) (by rw [hpc]; simp) (by simp) (fun _ => ?_)
        exact .inr (.inl ⟨i, by simp [St.setpc, upd, waking]⟩)
  | try_ =>
    simp only [stepWake] at hs
    split at hs <;> cases hs
    all_goals exact live_of_unit hB h hI' hpc rfl rfl rfl rfl (fun _ _ hh => hh) (by simp) (by simp) (by cases k <;> simp [unitPc])
  | undo =>
    simp only [stepWake] at hs
    split at hs <;> cases hs
    · rename_i hm
      refine live_finish h hpc ⟨rfl, rfl, rfl, rfl⟩ (fun _ _ hh => hh) (by simp) (fun _ => .inl ?_)
      rw [finish_count]; exact hm
    · refine live_frame h rfl rfl rfl rfl (fun _ _ hh => hh) (by rw [hpc]; simp) (by simp) (fun _ => ?_)
      exact .inr (.inl ⟨i, by simp [St.setpc, upd, waking]⟩)
  | grant b =>
    simp only [stepWake] at hs
    simp only [wfPc] at hwf
    cases hs
    obtain ⟨t0, l0, hq0⟩ := hwf.1
    have ht0 : t0 ∈ leading s.q := by simp [leading, hq0]
    constructor
    · intro _; left
      refine act_of_unit (t := t0) hB hI' ?_
      simp [unit, ht0]
    · intro t ht hnt
      simp only at ht hnt
      by_cases hl : t ∈ leading s.q
      · exact ⟨i, leading s.q, k, hl, .inl (by simp [upd])⟩
      · simp only [hl, if_false] at ht
        obtain ⟨a, l, k', hm, ha⟩ := h.l2 t ht hnt
        have hai : a ≠ i := by intro hh; subst hh; simp [hpc] at ha
        exact ⟨a, l, k', hm, by simpa [upd, hai] using ha⟩
    · intro t ht hb
      simp only [upd] at ht hb ⊢
      split at hb
      · simp at hb
      rcases h.l3 t ht hb with h2 | ⟨a, l, k', ha⟩
      · exact .inl h2
      · have hai : a ≠ i := by intro hh; subst hh; simp [hpc] at ha
        exact .inr ⟨a, l, k', by simpa [hai] using ha⟩
  | notify l =>
    cases l with
    | nil =>
      simp only [stepWake] at hs
      cases hs
      refine live_finish h hpc ⟨rfl, rfl, rfl, rfl⟩ (fun _ _ hh => hh) (by simp; grind) ?_
      obtain ⟨p', hp'⟩ := finish_pc s i k
      refine l1_frame h hp' (finish_q ..) (finish_count ..) (by rw [finish_sg]; exact fun _ _ hh => hh) ?_
      simp [hpc, waking, trying]
    | cons t l =>
      simp only [stepWake] at hs
      simp only [wfPc, List.nodup_cons] at hwf
      cases hs
      constructor
      · refine l1_frame (s' := { s with nt := upd s.nt t true, pc := upd s.pc i (.wake (.pulse t (s.gen t) l) k) })
          h rfl rfl rfl (fun _ _ hh => hh) ?_
        simp [hpc, waking, trying]
      · intro u hu hnu
        simp only [upd] at hu hnu
        split at hnu
        · simp at hnu
        rename_i hut
        obtain ⟨a, l', k', hm, ha⟩ := h.l2 u hu hnu
        by_cases hai : a = i
        · subst hai
          rw [hpc] at ha
          simp at ha
          obtain ⟨rfl, rfl⟩ := ha
          simp [hut] at hm
          exact ⟨a, l, k, hm, .inr ⟨t, s.gen t, by simp [upd]⟩⟩
        · exact ⟨a, l', k', hm, by simpa [upd, hai] using ha⟩
      · intro u hu hb
        simp only [upd] at hu hb ⊢
        split at hb
        · simp at hb
        rename_i hui
        by_cases hut : u = t
        · subst hut; exact .inr ⟨i, l, k, by simp⟩
        · rw [if_neg hut] at hu
          rcases h.l3 u hu hb with h2 | ⟨a, l', k', ha⟩
          · exact .inl h2
          · have hai : a ≠ i := by intro hh; subst hh; simp [hpc] at ha
            exact .inr ⟨a, l', k', by simpa [hai] using ha⟩
  | pulse t g l =>
    simp only [stepWake] at hs
    split at hs <;> cases hs
    · rename_i hg
      constructor
      · refine l1_frame (s' := St.setpc { s with sg := upd s.sg t true } i (.wake (.notify l) k))
          h rfl rfl rfl ?_ ?_
        · intro j hj hh; simp only [St.setpc, upd]; split <;> simp [hh]
        · simp [hpc, waking, trying]
      · intro u hu hnu
        obtain ⟨a, l', k', hm, ha⟩ := h.l2 u hu hnu
        by_cases hai : a = i
        · subst hai
          rw [hpc] at ha
          simp at ha
          obtain ⟨⟨rfl, rfl, rfl⟩, rfl⟩ := ha
          exact ⟨a, l, k, hm, .inl (by simp [St.setpc, upd])⟩
        · exact ⟨a, l', k', hm, by simpa [St.setpc, upd, hai] using ha⟩
      · intro u hu hb
        simp only [St.setpc, upd] at hu hb ⊢
        split at hb
        · simp at hb
        rename_i hui
        by_cases hut : u = t
        · subst hut; simp
        · rw [if_neg hut]
          rcases h.l3 u hu hb with h2 | ⟨a, l', k', ha⟩
          · exact .inl h2
          · have hai : a ≠ i := by
              intro hh; subst hh; rw [hpc] at ha; simp at ha; exact hut ha.1.1.symm
            exact .inr ⟨a, l', k', by simpa [hai] using ha⟩
    · exact ⟨h.l1, h.l2, h.l3⟩

theorem live_step {B : Int} {n i : Nat} {s s' : St} {a : Act} (hB : (n : Int) < B) (hi : i < n)
    (hI : Inv B n s) (h : Live B s) (hs : step B s i a = some s') : Live B s' := by
  have hI' := inv_step hB hi hI hs
  have hidle : s'.q ≠ [] → s'.count % B = 0 → s'.count = -B := count_idle hB hI'
  cases hpc : s.pc i with
  | idle => exact live_idle hB h hI' hpc hs
  | holdR => exact live_hold hB hi h hI' (.inl hpc) hs
  | holdW => exact live_hold hB hi h hI' (.inr hpc) hs
  | rSlow =>
    simp only [step, hpc] at hs
    split at hs
    · simp at hs
    cases a <;> simp only at hs <;> try contradiction
    split at hs
    · simp at hs
    generalize ha : (if s.q = [] then _ else _ : Int) = adj at hs
    split at hs <;> cases hs
    · refine live_frame h rfl rfl rfl rfl ?_ (by simp [hpc]) (by simp) (fun _ => ?_)
      · intro j hj hh; simp [St.setpc, upd, hj, hh]
      · exact .inr (.inl ⟨i, by simp [St.setpc, upd, waking]⟩)
    · rename_i hc
      refine live_frame h rfl rfl rfl rfl ?_ (by simp [hpc]) (by simp) (fun hq => .inl fun hm => ?_)
      · intro j hj hh; simp [St.setpc, St.release, upd, hj, hh]
      · exact hc (.inl (hidle hq hm))
  | rChk =>
    simp only [step, hpc] at hs
    split at hs
    · simp at hs
    cases a <;> simp only at hs <;> try contradiction
    split at hs <;> cases hs
    · rename_i hn
      constructor
      · intro _; left
        refine act_of_unit (t := i) hB hI' ?_
        simp only [unit, upd, if_true, unitPc]; omega
      · intro t ht hnt
        simp only [upd] at ht hnt
        by_cases hti : t = i
        · subst hti; simp at ht
        · rw [if_neg hti] at ht hnt
          obtain ⟨a, l, k, hm, ha⟩ := h.l2 t ht hnt
          have hai : a ≠ i := by intro hh; subst hh; simp [hpc] at ha
          exact ⟨a, l, k, hm, by simpa [upd, hai] using ha⟩
      · intro t ht hb
        simp only [upd] at ht hb ⊢
        by_cases hti : t = i
        · subst hti; simp at ht
        · rw [if_neg hti] at ht hb ⊢
          rcases h.l3 t ht hb with h2 | ⟨a, l, k, ha⟩
          · exact .inl h2
          · have hai : a ≠ i := by intro hh; subst hh; simp [hpc] at ha
            exact .inr ⟨a, l, k, by simpa [hai] using ha⟩
    · rename_i hn
      refine live_frame h rfl rfl rfl rfl (fun _ _ hh => hh) (by simp [hpc]) (by simpa using hn) ?_
      refine l1_frame (s' := s.setpc i .rBlk) h rfl rfl rfl (fun _ _ hh => hh) ?_
      simp [hpc, waking, trying]
  | rBlk =>
    simp only [step, hpc] at hs
    split at hs
    · simp at hs
    cases a <;> simp only at hs <;> try contradiction
    · split at hs <;> cases hs
      refine live_frame h rfl rfl rfl rfl ?_ (by simp [hpc]) (by simp) ?_
      · intro j hj hh; simp [St.setpc, upd, hj, hh]
      · refine l1_frame (s' := St.setpc { s with sg := upd s.sg i false } i .rChk) h rfl rfl rfl ?_ ?_
        · intro j hj hh; simp [St.setpc, upd, hj, hh]
        · simp [hpc, waking, trying]
    · cases hs
      refine live_frame h rfl rfl rfl rfl (fun _ _ hh => hh) (by simp [hpc]) (by simp) ?_
      refine l1_frame (s' := s.setpc i .rChk) h rfl rfl rfl (fun _ _ hh => hh) ?_
      simp [hpc, waking, trying]
  | wSlow =>
    simp only [step, hpc] at hs
    split at hs
    · simp at hs
    cases a <;> simp only at hs <;> try contradiction
    split at hs
    · simp at hs
    generalize ha : (if s.q = [] then _ else _ : Int) = adj at hs
    split at hs <;> cases hs
    · rename_i hc
      refine live_frame h rfl rfl rfl rfl ?_ (by simp [hpc]) (by simp) (fun hq => .inl fun hm => ?_)
      · intro j hj hh; simp [St.setpc, upd, hj, hh]
      · have := hidle hq hm
        simp only [St.setpc] at this
        omega
    · rename_i hc
      refine live_frame h rfl rfl rfl rfl ?_ (by simp [hpc]) (by simp) (fun hq => ?_)
      · intro j hj hh; simp [St.setpc, upd, hj, hh]
      · by_cases hm : (s.count + adj) % B = 0
        · exact .inr (.inr ⟨i, .inl ⟨s.count + adj, by simp [St.setpc, upd], hm⟩⟩)
        · exact .inl hm
  | wLoop c =>
    simp only [step, hpc] at hs
    split at hs
    · simp at hs
    cases a <;> simp only at hs <;> try contradiction
    split at hs <;> cases hs
    · exact live_of_unit hB h hI' hpc rfl rfl rfl rfl (fun _ _ hh => hh) (by simp) (by simp) (by simp [unitPc])
    · rename_i hc
      refine live_frame h rfl rfl rfl rfl (fun _ _ hh => hh) (by simp [hpc]) (by simp) ?_
      intro hq
      refine l1_frame (s' := (s.setpc i .wBlk).release) h rfl rfl rfl (fun _ _ hh => hh) ?_ hq
      intro hh
      left
      intro hm
      have h1 := hidle hq hm
      simp only [St.setpc, St.release] at h1
      rcases hh with hh | hh
      · simp [hpc, waking] at hh
      · simp only [trying, hpc] at hh
        simp at hh
        exact hc ⟨hh, h1⟩
  | wBlk =>
    simp only [step, hpc] at hs
    split at hs
    · simp at hs
    cases a <;> simp only at hs <;> try contradiction
    · split at hs <;> cases hs
      refine live_frame h rfl rfl rfl rfl ?_ (by simp [hpc]) (by simp) ?_
      · intro j hj hh; simp [St.setpc, upd, hj, hh]
      · intro _; exact .inr (.inr ⟨i, .inr (.inl (by simp [St.setpc, upd]))⟩)
    · cases hs
      refine live_frame h rfl rfl rfl rfl (fun _ _ hh => hh) (by simp [hpc]) (by simp) ?_
      intro _; exact .inr (.inr ⟨i, .inr (.inl (by simp [St.setpc, upd]))⟩)
  | wRelock =>
    simp only [step, hpc] at hs
    split at hs
    · simp at hs
    cases a <;> simp only at hs <;> try contradiction
    split at hs
    · simp at hs
    cases hs
    refine live_frame h rfl rfl rfl rfl (fun _ _ hh => hh) (by simp [hpc]) (by simp) ?_
    intro _
    by_cases hm : s.count % B = 0
    · exact .inr (.inr ⟨i, .inl ⟨s.count, by simp [St.setpc, upd], hm⟩⟩)
    · exact .inl hm
  | wake w k =>
    simp only [step, hpc] at hs
    split at hs
    · simp at hs
    cases a <;> simp only at hs <;> try contradiction
    exact live_wake hB hI h hI' hpc hs

theorem live_reach {B : Int} {n : Nat} {s : St} (hB : (n : Int) < B) (h : Reach B n s) : Live B s := by
  induction h with
  | init => exact live_init B
  | step i a hi hr hs ih => exact live_step hB hi (inv_reach hB hr) ih hs

end Verif.RwLock
