import Verif.RwLock
/-
  Invariants of the read-write lock model.  Helper module: the properties are in RwLockProps.lean.
-/
namespace Verif.RwLock

def sumN (f : Nat → Nat) : Nat → Nat
  | 0 => 0
  | n + 1 => sumN f n + f n

theorem sumN_congr {f g : Nat → Nat} {n : Nat} (h : ∀ j, j < n → f j = g j) : sumN f n = sumN g n := by
  induction n with
  | zero => rfl
  | succ n ih =>
    have := ih (fun j hj => h j (by omega))
    have := h n (by omega)
    simp only [sumN]; omega

theorem sumN_add (f g : Nat → Nat) (n : Nat) : sumN (fun j => f j + g j) n = sumN f n + sumN g n := by
  induction n with
  | zero => rfl
  | succ n ih => simp only [sumN]; omega

theorem sumN_one (i n : Nat) (hi : i < n) (f g : Nat → Nat) (h : ∀ j, j ≠ i → f j = g j) :
    sumN f n + g i = sumN g n + f i := by
  induction n with
  | zero => omega
  | succ n ih =>
    by_cases hn : i = n
    · subst hn
      have := sumN_congr (n := i) (f := f) (g := g) (fun j hj => h j (by omega))
      simp only [sumN]; omega
    · have := ih (by omega)
      have := h n (by omega)
      simp only [sumN]; omega

theorem sumN_le (f : Nat → Nat) (n : Nat) (h : ∀ j, f j ≤ 1) : sumN f n ≤ n := by
  induction n with
  | zero => simp [sumN]
  | succ n ih => have := h n; simp only [sumN]; omega

theorem sumN_zero {f : Nat → Nat} {n : Nat} (h : sumN f n = 0) : ∀ j, j < n → f j = 0 := by
  induction n with
  | zero => omega
  | succ n ih =>
    simp only [sumN] at h
    intro j hj
    by_cases hn : j = n
    · subst hn; omega
    · exact ih (by omega) j (by omega)

theorem sumN_pos {f : Nat → Nat} {n i : Nat} (hi : i < n) (h : 0 < f i) : 0 < sumN f n := by
  rcases Nat.eq_zero_or_pos (sumN f n) with h0 | h0
  · have := sumN_zero h0 i hi; omega
  · exact h0

theorem sumN_mem (ts : List Nat) (n : Nat) (hd : ts.Nodup) (hl : ∀ t ∈ ts, t < n) :
    sumN (fun j => if j ∈ ts then 1 else 0) n = ts.length := by
  induction ts with
  | nil =>
    have : sumN (fun j => if j ∈ ([] : List Nat) then 1 else 0) n = sumN (fun _ => 0) n := by simp
    rw [this]; clear this hd hl
    induction n with
    | zero => rfl
    | succ n ih => simp_all [sumN]
  | cons t ts ih =>
    have hd' := List.nodup_cons.mp hd
    have e := ih hd'.2 (fun t ht => hl t (List.mem_cons_of_mem _ ht))
    have h1 := sumN_one t n (hl t (by simp)) (fun j => if j ∈ t :: ts then 1 else 0)
      (fun j => if j ∈ ts then 1 else 0) (by intro j hj; simp [hj])
    simp only [List.mem_cons, true_or, if_true, hd'.1, if_false, List.length_cons] at h1 ⊢
    omega

/-! ### Contributions to `count` -/

/-- Does the thread count in the active part of `count` by its own program position? -/
def unitPc : PC → Nat
  | .holdR => 1
  | .holdW => 1
  | .rSlow => 1
  | .wSlow => 1
  | .wake _ .toHoldR => 1
  | .wake .undo _ => 1
  | .wake (.grant true) _ => 1
  | _ => 0

def wrPc : PC → Nat
  | .holdW => 1
  | .wSlow => 1
  | _ => 0

def unit (s : St) (t : Nat) : Nat := unitPc (s.pc t) + if s.gr t then 1 else 0
def wr (s : St) (t : Nat) : Nat := wrPc (s.pc t)

/-- In the critical section of `wait_lock`. -/
def cs : PC → Bool
  | .wLoop _ => true
  | .wake (.pend _) _ => false
  | .wake _ _ => true
  | _ => false

/-- Waiting for the read lock. -/
def inR : PC → Bool
  | .rChk => true
  | .rBlk => true
  | .wake _ .toRWait => true
  | _ => false

/-- Waiting for the write lock. -/
def inW : PC → Bool
  | .wLoop _ => true
  | .wBlk => true
  | .wRelock => true
  | .wake _ (.toWLoop _) => true
  | _ => false

def headReader (q : List (Nat × Bool)) : Prop := ∃ t l, q = (t, false) :: l

/-- Local well-formedness of a program position. -/
def wfPc (s : St) : PC → Prop
  | .wake (.pend w) k => (w = .any ∧ k = .toIdle) ∨ (w = .readOwned ∧ k = .toHoldR)
  | .wake (.start w) k => s.q ≠ [] ∧ (w = .readOwned ↔ k = .toHoldR) ∧ (w = .readers ↔ ∃ c, k = .toWLoop c)
  | .wake .try_ k => headReader s.q ∧ k ≠ .toHoldR
  | .wake .undo k => headReader s.q ∧ k ≠ .toHoldR
  | .wake (.grant b) k => headReader s.q ∧ (b = true ↔ k ≠ .toHoldR)
  | .wake (.notify l) _ => l.Nodup ∧ ∀ t ∈ l, s.gr t = true ∧ s.nt t = false
  | .wake (.pulse t _ l) _ => l.Nodup ∧ t ∉ l ∧ ∀ t ∈ l, s.gr t = true ∧ s.nt t = false
  | _ => True

/-- Program positions of a waiter that has been given the read lock. -/
def grOk : PC → Bool
  | .rChk => true
  | .rBlk => true
  | .wake (.notify _) .toRWait => true
  | .wake (.pulse _ _ _) .toRWait => true
  | _ => false

theorem grOk_inR {p : PC} (h : grOk p = true) : inR p = true := by
  unfold grOk at h; split at h <;> simp_all [inR]

theorem grOk_unit {p : PC} (h : grOk p = true) : unitPc p = 0 := by
  unfold grOk at h; split at h <;> simp_all [unitPc]

def qbias (q : List (Nat × Bool)) : Int := if q = [] then 0 else 1

/-- Holding the read lock, or certain to. -/
def rHold (s : St) (t : Nat) : Prop :=
  s.pc t = .holdR ∨ s.gr t = true ∨ (∃ b k, s.pc t = .wake (.grant b) k) ∨ (∃ w, s.pc t = .wake w .toHoldR)

structure Inv (B : Int) (n : Nat) (s : St) : Prop where
  cnt : s.count = sumN (unit s) n - B * (sumN (wr s) n + qbias s.q)
  lkcs : ∀ i, s.lk = some i ↔ cs (s.pc i) = true
  out : ∀ i, n ≤ i → s.pc i = .idle
  qnd : (s.q.map (·.1)).Nodup
  qw : ∀ t, (t, true) ∈ s.q ↔ inW (s.pc t) = true
  qr : ∀ t, (t, false) ∈ s.q ↔ inR (s.pc t) = true ∧ s.gr t = false
  grO : ∀ t, s.gr t = true → grOk (s.pc t) = true
  ntgr : ∀ t, s.nt t = true → s.gr t = true
  wf : ∀ t, wfPc s (s.pc t)
  ex : ∀ i j, s.pc i = .holdW → j ≠ i → s.pc j ≠ .holdW ∧ ¬ rHold s j

theorem sumN_const (n : Nat) : sumN (fun _ => 0) n = 0 := by
  induction n with
  | zero => rfl
  | succ n ih => simp [sumN, ih]

theorem inv_init (B : Int) (n : Nat) : Inv B n St.init := by
  have e1 : unit St.init = fun _ => 0 := rfl
  have e2 : wr St.init = fun _ => 0 := rfl
  constructor
  · rw [e1, e2, sumN_const]; simp [St.init, qbias]
  all_goals simp [St.init, cs, inW, inR, wfPc]

theorem Inv.grR {B n s} (h : Inv B n s) (t : Nat) (hg : s.gr t = true) : inR (s.pc t) = true :=
  grOk_inR (h.grO t hg)

theorem Inv.grU {B n s} (h : Inv B n s) (t : Nat) (hg : s.gr t = true) : unitPc (s.pc t) = 0 :=
  grOk_unit (h.grO t hg)

theorem unitPc_le (p : PC) : unitPc p ≤ 1 := by
  unfold unitPc; split <;> omega

theorem Inv.unit_le {B n s} (h : Inv B n s) (t : Nat) : unit s t ≤ 1 := by
  unfold unit
  have := unitPc_le (s.pc t)
  split
  · rename_i hg; have := h.grU t hg; omega
  · omega

theorem wr_le_unit (s : St) (t : Nat) : wr s t ≤ unit s t := by
  unfold wr unit
  cases s.pc t <;> simp [wrPc, unitPc]

theorem Inv.A_lt {B : Int} {n : Nat} {s} (h : Inv B n s) : sumN (unit s) n ≤ n := sumN_le _ _ h.unit_le

/-! ### Arithmetic of `count` -/

theorem ar_nonneg {B : Int} {A W : Nat} {b c : Int} (hb : 0 ≤ b) (hA : (A : Int) < B)
    (hc : c = A - B * (W + b)) (h : 0 ≤ c) : W = 0 ∧ b = 0 := by
  have hB : 0 < B := by omega
  by_cases hk : (W : Int) + b = 0
  · omega
  · exfalso
    have : 1 ≤ (W : Int) + b := by omega
    have := Int.mul_le_mul_of_nonneg_left this (Int.le_of_lt hB)
    omega

theorem ar_mod {B : Int} {A W : Nat} {b c : Int} (hA : (A : Int) < B)
    (hc : c = A - B * (W + b)) : c % B = A := by
  have hB : 0 < B := by omega
  rw [hc, Int.sub_mul_emod_self_left]
  exact Int.emod_eq_of_lt (by omega) hA

theorem ar_eq {B : Int} {A W : Nat} {b c K : Int} (hA : (A : Int) < B)
    (hc : c = A - B * (W + b)) (h : c = -B * K) : A = 0 ∧ W + b = K := by
  have hm := ar_mod hA hc
  have hB : 0 < B := by omega
  have h0 : (A : Int) = 0 := by
    rw [← hm, h]
    simp [Int.neg_mul]
  refine ⟨by omega, ?_⟩
  rw [h0, h, Int.neg_mul] at hc
  have : B * K = B * (W + b) := by omega
  exact ((Int.mul_eq_mul_left_iff (by omega)).mp this).symm

/-- `-B ≤ c` with `b = 1` means no writer is active or trying. -/
theorem ar_ge {B : Int} {A W : Nat} {c : Int} (hA : (A : Int) < B)
    (hc : c = A - B * (W + 1)) (h : -B ≤ c) : W = 0 := by
  refine (ar_nonneg (b := 0) (c := c + B) (A := A) (W := W) (by omega) hA ?_ (by omega)).1
  rw [hc, Int.mul_add]; simp; omega

theorem sums_pc {n i : Nat} {s s' : St} (hi : i < n) (hg : s'.gr = s.gr) {p : PC}
    (hp : s'.pc = upd s.pc i p) :
    sumN (unit s') n + unitPc (s.pc i) = sumN (unit s) n + unitPc p ∧
    sumN (wr s') n + wrPc (s.pc i) = sumN (wr s) n + wrPc p := by
  constructor
  · have := sumN_one i n hi (unit s') (unit s) (by intro j hj; simp [unit, hg, hp, upd, hj])
    simp only [unit, hg, hp, upd, if_true] at this ⊢
    omega
  · have := sumN_one i n hi (wr s') (wr s) (by intro j hj; simp [wr, hp, upd, hj])
    simp only [wr, hp, upd, if_true] at this ⊢
    omega

theorem wfPc_congr {s s' : St} (hq : s'.q = s.q) (hg : s'.gr = s.gr) (hn : s'.nt = s.nt) (p : PC) :
    wfPc s' p = wfPc s p := by
  unfold wfPc; split <;> simp [hq, hg, hn]

/-- A step of thread `i` that touches neither the list nor the grants. -/
theorem inv_simple {B : Int} {n i : Nat} {s s' : St} (hi : i < n) (h : Inv B n s) {p p' : PC}
    (hpc : s.pc i = p) (hp : s'.pc = upd s.pc i p') (hq : s'.q = s.q) (hg : s'.gr = s.gr)
    (hn : s'.nt = s.nt)
    (hc : s'.count = s.count + ((unitPc p' : Int) - unitPc p) - B * ((wrPc p' : Int) - wrPc p))
    (hW : inW p' = inW p) (hR : inR p' = inR p)
    (hlk : (cs p' = cs p ∧ s'.lk = s.lk) ∨ (cs p = false ∧ cs p' = true ∧ s.lk = none ∧ s'.lk = some i) ∨
      (cs p = true ∧ cs p' = false ∧ s'.lk = none))
    (hwf : wfPc s p') (hu : s.gr i = true → grOk p' = true)
    (hx1 : p' = .holdW → ∀ j, j ≠ i → s.pc j ≠ .holdW ∧ ¬ rHold s j)
    (hx2 : rHold s' i → rHold s i ∨ ∀ j, j ≠ i → s.pc j ≠ .holdW) : Inv B n s' := by
  have e := sums_pc hi hg hp
  have hrj : ∀ j, j ≠ i → (rHold s' j ↔ rHold s j) := by
    intro j hj; simp [rHold, hp, hg, upd, hj]
  obtain ⟨h1, h2, h3, h4, h5, h6, h7, h8, h9, h11⟩ := h
  subst hpc
  constructor
  · have e1 : (sumN (unit s') n : Int) = sumN (unit s) n + unitPc p' - unitPc (s.pc i) := by omega
    have e2 : (sumN (wr s') n : Int) = sumN (wr s) n + ((wrPc p' : Int) - wrPc (s.pc i)) := by omega
    rw [hc, h1, hq, e1, e2]
    simp only [Int.mul_add, Int.mul_sub]
    omega
  · intro j
    have := h2 i; have := h2 j
    by_cases hj : j = i
    · subst hj; simp only [hp, upd, if_true]; grind
    · simp only [hp, upd, hj, if_false]; grind
  · intro j hj; simp only [hp, upd]; rw [if_neg (by omega)]; exact h3 j hj
  · rw [hq]; exact h4
  · intro t; rw [hq, h5 t, hp]; simp only [upd]; grind
  · intro t; rw [hq, h6 t, hp, hg]; simp only [upd]; grind
  · intro t; rw [hg, hp]; simp only [upd]; grind
  · intro t; rw [hg, hn]; exact h8 t
  · intro t; rw [wfPc_congr hq hg hn, hp]; simp only [upd]; split
    · exact hwf
    · exact h9 t
  · intro a b ha hab
    rw [hp] at ha ⊢
    simp only [upd] at ha ⊢
    by_cases hai : a = i
    · subst hai
      rw [if_neg hab]
      simp only [if_true] at ha
      rw [hrj b hab]
      exact hx1 ha b hab
    · rw [if_neg hai] at ha
      by_cases hbi : b = i
      · subst hbi
        rw [if_pos rfl]
        constructor
        · intro hh; exact (hx1 hh a hai).1 ha
        · intro hh
          rcases hx2 hh with hh | hh
          · exact (h11 a b ha hab).2 hh
          · exact hh a hai ha
      · rw [if_neg hbi, hrj b hbi]
        exact h11 a b ha hab

theorem qbias_nonneg (q) : 0 ≤ qbias q := by unfold qbias; split <;> omega

theorem noW {B : Int} {n : Nat} {s : St} (h : Inv B n s) (h0 : sumN (wr s) n = 0) (j : Nat) :
    s.pc j ≠ .holdW := by
  intro hj
  by_cases hn : j < n
  · have := sumN_zero h0 j hn
    simp [wr, hj, wrPc] at this
  · have := h.out j (by omega); simp [this] at hj

theorem noU {B : Int} {n : Nat} {s : St} (h : Inv B n s) (h0 : sumN (unit s) n = 0) (j : Nat) :
    s.pc j ≠ .holdW ∧ ¬ rHold s j := by
  have key : unit s j = 0 := by
    by_cases hn : j < n
    · exact sumN_zero h0 j hn
    · have hp := h.out j (by omega)
      have : s.gr j = false := by
        cases hg : s.gr j
        · rfl
        · have := h.grR j hg; simp [hp, inR] at this
      simp [unit, hp, unitPc, this]
  simp only [unit] at key
  refine ⟨?_, ?_⟩
  · intro hj; simp [hj, unitPc] at key
  · rintro (hj | hj | ⟨b, k, hj⟩ | ⟨w, hj⟩)
    · simp [hj, unitPc] at key
    · simp [hj] at key
    · have := h.wf j
      rw [hj] at this key
      simp only [wfPc] at this
      cases b
      · have : k = .toHoldR := by
          have := this.2; grind
        subst this; simp [unitPc] at key
      · simp only [unitPc] at key
        cases k <;> simp at key
    · simp [hj, unitPc] at key

theorem inv_idle {B : Int} {n i : Nat} {s s' : St} {a : Act} (hB : (n : Int) < B) (hi : i < n) (h : Inv B n s)
    (hpc : s.pc i = .idle) (hs : step B s i a = some s') : Inv B n s' := by
  have hA := h.A_lt
  have hA' : (sumN (unit s) n : Int) < B := by omega
  have hgr : s.gr i = false := by
    cases hg : s.gr i
    · rfl
    · have := h.grR i hg; simp [hpc, inR] at this
  simp only [step, hpc] at hs
  split at hs
  · simp at hs
  cases a <;> simp only at hs <;> try contradiction
  · split at hs <;> cases hs
    · refine inv_simple hi h hpc rfl rfl rfl rfl ?_ rfl rfl (.inl ⟨rfl, rfl⟩) ?_ ?_ ?_ ?_
      all_goals simp [St.setpc, unitPc, wrPc, wfPc, hgr, rHold, upd]
    · have hw := ar_nonneg (qbias_nonneg _) hA' h.cnt (by omega)
      refine inv_simple hi h hpc rfl rfl rfl rfl ?_ rfl rfl (.inl ⟨rfl, rfl⟩) ?_ ?_ ?_ ?_
      all_goals simp [St.setpc, unitPc, wrPc, wfPc, hgr]
      exact fun _ => .inr fun j _ => noW h hw.1 j
  · split at hs <;> cases hs
    · have hw := ar_nonneg (qbias_nonneg _) hA' h.cnt (by omega)
      refine inv_simple hi h hpc rfl rfl rfl rfl ?_ rfl rfl (.inl ⟨rfl, rfl⟩) ?_ ?_ ?_ ?_
      all_goals simp [St.setpc, unitPc, wrPc, wfPc, hgr]
      exact fun _ => .inr fun j _ => noW h hw.1 j
    · exact h
  · split at hs <;> cases hs
    · refine inv_simple hi h hpc rfl rfl rfl rfl ?_ rfl rfl (.inl ⟨rfl, rfl⟩) ?_ ?_ ?_ ?_
      all_goals simp [St.setpc, unitPc, wrPc, wfPc, hgr, rHold, upd]
      omega
    · have hw := ar_eq (K := 0) hA' h.cnt (by omega)
      refine inv_simple hi h hpc rfl rfl rfl rfl ?_ rfl rfl (.inl ⟨rfl, rfl⟩) ?_ ?_ ?_ ?_
      all_goals simp [St.setpc, unitPc, wrPc, wfPc, hgr, rHold, upd]
      · omega
      · intro j _; have := noU h hw.1 j; simpa [rHold] using this
  · split at hs <;> cases hs
    · have hw := ar_eq (K := 0) hA' h.cnt (by omega)
      refine inv_simple hi h hpc rfl rfl rfl rfl ?_ rfl rfl (.inl ⟨rfl, rfl⟩) ?_ ?_ ?_ ?_
      all_goals simp [St.setpc, unitPc, wrPc, wfPc, hgr, rHold, upd]
      · omega
      · intro j _; have := noU h hw.1 j; simpa [rHold] using this
    · exact h

theorem inv_hold {B : Int} {n i : Nat} {s s' : St} {a : Act} (hi : i < n) (h : Inv B n s)
    (hpc : s.pc i = .holdR ∨ s.pc i = .holdW) (hs : step B s i a = some s') : Inv B n s' := by
  have hgr : s.gr i = false := by
    cases hg : s.gr i
    · rfl
    · have := h.grR i hg; rcases hpc with hpc | hpc <;> simp [hpc, inR] at this
  rcases hpc with hpc | hpc <;> simp only [step, hpc] at hs <;> (split at hs; · simp at hs) <;>
    cases a <;> simp only at hs <;> try contradiction
  · split at hs <;> cases hs
    · refine inv_simple hi h hpc rfl rfl rfl rfl ?_ rfl rfl (.inl ⟨rfl, rfl⟩) ?_ ?_ ?_ ?_
      all_goals simp [St.setpc, unitPc, wrPc, wfPc, hgr, rHold, upd]
      omega
    · refine inv_simple hi h hpc rfl rfl rfl rfl ?_ rfl rfl (.inl ⟨rfl, rfl⟩) ?_ ?_ ?_ ?_
      all_goals simp [St.setpc, unitPc, wrPc, wfPc, hgr, rHold, upd]
      omega
  · split at hs <;> cases hs
    · refine inv_simple hi h hpc rfl rfl rfl rfl ?_ rfl rfl (.inl ⟨rfl, rfl⟩) ?_ ?_ ?_ ?_
      all_goals simp [St.setpc, unitPc, wrPc, wfPc, hgr, rHold, upd]
      omega
    · refine inv_simple hi h hpc rfl rfl rfl rfl ?_ rfl rfl (.inl ⟨rfl, rfl⟩) ?_ ?_ ?_ ?_
      all_goals simp [St.setpc, unitPc, wrPc, wfPc, hgr, rHold, upd]
      omega
  · have hno : ∀ j, j ≠ i → s.pc j ≠ .holdW := fun j hj => (h.ex i j hpc hj).1
    split at hs <;> cases hs
    · refine inv_simple hi h hpc rfl rfl rfl rfl ?_ rfl rfl (.inl ⟨rfl, rfl⟩) ?_ ?_ ?_ (fun _ => .inr hno)
      all_goals simp [St.setpc, unitPc, wrPc, wfPc, hgr]
    · refine inv_simple hi h hpc rfl rfl rfl rfl ?_ rfl rfl (.inl ⟨rfl, rfl⟩) ?_ ?_ ?_ (fun _ => .inr hno)
      all_goals simp [St.setpc, unitPc, wrPc, wfPc, hgr]

/-- Return from do_wake. -/
theorem inv_finish {B : Int} {n i : Nat} {s s0 s' : St} {w : WSt} {k : Cont} (hi : i < n) (h : Inv B n s)
    (hpc : s.pc i = .wake w k)
    (h0 : s0.pc = s.pc ∧ s0.q = s.q ∧ s0.gr = s.gr ∧ s0.nt = s.nt)
    (hcs : (cs (.wake w k) = true ∧ s0.lk = s.lk) ∨
      (cs (.wake w k) = false ∧ s.lk = none ∧ ∀ c, k ≠ .toWLoop c))
    (hu : s0.count = s.count + ((if k = .toHoldR then 1 else 0 : Nat) - unitPc (.wake w k) : Int))
    (hs : s' = s0.finish i k) : Inv B n s' := by
  subst hs
  have hg := h.grU i
  have hg2 := h.grR i
  obtain ⟨h1, h2, h3, h4⟩ := h0
  rw [hpc] at hg hg2
  have hpc' : ∀ (p : PC), upd s0.pc i p = upd s.pc i p := by rw [h1]; simp
  cases k with
  | toIdle =>
    refine inv_simple (p' := .idle) hi h hpc (hpc' _) h2 h3 h4 ?_ rfl rfl ?_ ?_ ?_ ?_ ?_
    · simp only [St.finish, St.setpc, St.release, hu]; simp [unitPc, wrPc]
    · rcases hcs with hcs | hcs
      · exact .inr (.inr ⟨hcs.1, rfl, rfl⟩)
      · exact .inl ⟨hcs.1.symm, hcs.2.1.symm⟩
    · simp [wfPc]
    · intro hh; have := hg2 hh; simp [inR] at this
    · simp
    · simp [St.finish, St.setpc, St.release, rHold, upd, h3]
      intro hh; exact .inl (.inr (.inl hh))
  | toHoldR =>
    refine inv_simple (p' := .holdR) hi h hpc (hpc' _) h2 h3 h4 ?_ rfl rfl ?_ ?_ ?_ ?_ ?_
    · simp only [St.finish, St.setpc, St.release, hu]; simp [unitPc, wrPc]
    · rcases hcs with hcs | hcs
      · exact .inr (.inr ⟨hcs.1, rfl, rfl⟩)
      · exact .inl ⟨hcs.1.symm, hcs.2.1.symm⟩
    · simp [wfPc]
    · intro hh; have := hg2 hh; simp [inR] at this
    · simp
    · intro _; exact .inl (.inr (.inr (.inr ⟨w, hpc⟩)))
  | toRWait =>
    refine inv_simple (p' := .rChk) hi h hpc (hpc' _) h2 h3 h4 ?_ rfl rfl ?_ ?_ ?_ ?_ ?_
    · simp only [St.finish, St.setpc, St.release, hu]; simp [unitPc, wrPc]
    · rcases hcs with hcs | hcs
      · exact .inr (.inr ⟨hcs.1, rfl, rfl⟩)
      · exact .inl ⟨hcs.1.symm, hcs.2.1.symm⟩
    · simp [wfPc]
    · simp [grOk]
    · simp
    · simp [St.finish, St.setpc, St.release, rHold, upd, h3]
      intro hh; exact .inl (.inr (.inl hh))
  | toWLoop c =>
    have hcs : cs (.wake w (.toWLoop c)) = true ∧ s0.lk = s.lk := by
      rcases hcs with hcs | hcs
      · exact hcs
      · exact absurd rfl (hcs.2.2 c)
    refine inv_simple (p' := .wLoop c) hi h hpc (hpc' _) h2 h3 h4 ?_ rfl rfl (.inl ⟨hcs.1.symm, hcs.2⟩) ?_ ?_ ?_ ?_
    · simp only [St.finish, St.setpc, hu]; simp [unitPc, wrPc]
    · simp [wfPc]
    · intro hh; have := hg2 hh; simp [inR] at this
    · simp
    · simp [St.finish, St.setpc, rHold, upd, h3]
      intro hh; exact .inl (.inr (.inl hh))

theorem inv_wake1 {B : Int} {n i : Nat} {s s' : St} {w w' : WSt} {k : Cont} (hi : i < n)
    (h : Inv B n s) (hpc : s.pc i = .wake w k)
    (hp : s'.pc = upd s.pc i (.wake w' k)) (hq : s'.q = s.q) (hg : s'.gr = s.gr)
    (hn : s'.nt = s.nt) (hlk : s'.lk = s.lk) (hc1 : cs (.wake w k) = true) (hc2 : cs (.wake w' k) = true)
    (_ : True = True)
    (hc : s'.count = s.count + ((unitPc (.wake w' k) : Int) - unitPc (.wake w k)))
    (hwf : wfPc s (.wake w' k)) (hu : s.gr i = true → grOk (.wake w' k) = true)
    (hx2 : rHold s' i → rHold s i ∨ ∀ j, j ≠ i → s.pc j ≠ .holdW) : Inv B n s' := by
  refine inv_simple hi h hpc hp hq hg hn ?_ ?_ ?_ (.inl ⟨by rw [hc1, hc2], hlk⟩) hwf hu (by simp) hx2
  · simp [hc, wrPc]
  · cases k <;> rfl
  · cases k <;> rfl

theorem headReader_ne {q} (h : headReader q) : q ≠ [] := by
  obtain ⟨t, l, rfl⟩ := h; simp

theorem inv_wake {B : Int} {n i : Nat} {s s' : St} {w : WSt} {k : Cont} (hB : (n : Int) < B) (hi : i < n)
    (h : Inv B n s) (hng : ∀ b, w ≠ .grant b) (hnn : ∀ t l, w ≠ .notify (t :: l))
    (hpc : s.pc i = .wake w k) (hs : stepWake B s i k w = some s') : Inv B n s' := by
  have hA := h.A_lt
  have hA' : (sumN (unit s) n : Int) < B := by omega
  have hwf := h.wf i
  have hlk := h.lkcs i
  have hgu := h.grU i
  have hgR := h.grR i
  have hgO := h.grO i
  rw [hpc] at hwf hlk hgu hgR hgO
  cases w with
  | pend w =>
    simp only [stepWake] at hs
    split at hs
    · simp at hs
    rename_i hl
    have hl : s.lk = none := by simpa using hl
    split at hs <;> cases hs
    · refine inv_finish (s0 := { s with lk := some i }) hi h hpc ⟨rfl, rfl, rfl, rfl⟩ (.inr ⟨rfl, hl, ?_⟩) ?_ rfl
      · intro c hk; subst hk; simp [wfPc] at hwf
      · simp only [wfPc] at hwf
        rcases hwf with ⟨-, rfl⟩ | ⟨-, rfl⟩ <;> simp [unitPc]
    · refine inv_simple hi h hpc rfl rfl rfl rfl ?_ ?_ ?_ (.inr (.inl ⟨rfl, rfl, hl, rfl⟩)) ?_ ?_ ?_ ?_
      · simp only [wfPc] at hwf
        rcases hwf with ⟨-, rfl⟩ | ⟨-, rfl⟩ <;> simp [unitPc, St.setpc, wrPc]
      · simp only [wfPc] at hwf
        rcases hwf with ⟨-, rfl⟩ | ⟨-, rfl⟩ <;> rfl
      · simp only [wfPc] at hwf
        rcases hwf with ⟨-, rfl⟩ | ⟨-, rfl⟩ <;> rfl
      · simp only [wfPc] at hwf ⊢
        rcases hwf with ⟨rfl, rfl⟩ | ⟨rfl, rfl⟩ <;> simp <;> assumption
      · simp only [wfPc] at hwf
        rcases hwf with ⟨rfl, rfl⟩ | ⟨rfl, rfl⟩ <;> simp_all [unitPc, inR]
      · simp
      · simp only [wfPc] at hwf
        intro _; left
        rename_i hh
        rcases hwf with ⟨rfl, rfl⟩ | ⟨rfl, rfl⟩
        · simp [rHold, St.setpc, upd] at hh
          exact .inr (.inl hh)
        · exact .inr (.inr (.inr ⟨_, hpc⟩))
  | start w =>
    simp only [stepWake] at hs
    simp only [wfPc] at hwf
    have hu : (unitPc (.wake (.start w) k) : Nat) = if k = .toHoldR then 1 else 0 := by
      cases k <;> simp [unitPc]
    split at hs
    · simp at hs
    · split at hs <;> cases hs
      · refine inv_finish (s0 := { s with sg := upd s.sg _ true }) hi h hpc ⟨rfl, rfl, rfl, rfl⟩
          (.inl ⟨rfl, rfl⟩) ?_ rfl
        rw [hu]; simp
      · refine inv_finish (s0 := s) hi h hpc ⟨rfl, rfl, rfl, rfl⟩ (.inl ⟨rfl, rfl⟩) ?_ rfl
        rw [hu]; simp
    · rename_i t l hq
      split at hs <;> cases hs
      · rename_i hw
        have hk := hwf.2.1.mp hw
        subst hk
        exact inv_wake1 hi h hpc rfl rfl rfl rfl rfl rfl rfl rfl (by simp [St.setpc, unitPc])
          ⟨⟨t, l, hq⟩, by simp⟩ (by intro hh; simp [inR] at hgR; simp [hgR] at hh)
          (fun _ => .inl (.inr (.inr (.inr ⟨_, hpc⟩))))
      · rename_i hw
        have hk : k ≠ .toHoldR := fun hk => hw (hwf.2.1.mpr hk)
        refine inv_wake1 hi h hpc rfl rfl rfl rfl rfl rfl rfl rfl ?_ ⟨⟨t, l, hq⟩, hk⟩ ?_ ?_
        · cases k <;> simp_all [St.setpc, unitPc]
        · intro hh; have := hgO hh; simp [grOk] at this
        · simp only [rHold, St.setpc, upd, if_true]
          intro hh; left; right; left
          simpa [hk] using hh
  | try_ =>
    simp only [stepWake] at hs
    simp only [wfPc] at hwf
    obtain ⟨hq, hk⟩ := hwf
    have hgi : s.gr i = false := by
      cases hg : s.gr i
      · rfl
      · have := hgO hg; simp [grOk] at this
    split at hs <;> cases hs
    · refine inv_wake1 hi h hpc rfl rfl rfl rfl rfl rfl rfl rfl ?_ ⟨hq, hk⟩ ?_ ?_
      · cases k <;> simp_all [St.setpc, unitPc]
      · simp [hgi]
      · simp only [rHold, St.setpc, upd, if_true]
        intro hh; left; right; left
        simpa [hk] using hh
    · refine inv_wake1 hi h hpc rfl rfl rfl rfl rfl rfl rfl rfl ?_ ⟨hq, by simpa using hk⟩ ?_ ?_
      · cases k <;> simp_all [St.setpc, unitPc]
      · simp [hgi]
      · intro _; right; intro j _
        have hb : qbias s.q = 1 := by simp [qbias, headReader_ne hq]
        have hc := h.cnt
        rw [hb] at hc
        exact noW h (ar_ge hA' hc (by omega)) j
  | undo =>
    simp only [stepWake] at hs
    simp only [wfPc] at hwf
    obtain ⟨hq, hk⟩ := hwf
    have hu : unitPc (.wake .undo k) = 1 := by cases k <;> simp [unitPc]
    have hgi : s.gr i = false := by
      cases hg : s.gr i
      · rfl
      · have := hgu hg; omega
    split at hs <;> cases hs
    · refine inv_finish (s0 := { s with count := s.count - 1 }) hi h hpc ⟨rfl, rfl, rfl, rfl⟩
          (.inl ⟨rfl, rfl⟩) ?_ rfl
      rw [hu]; simp [hk]; omega
    · refine inv_wake1 hi h hpc rfl rfl rfl rfl rfl rfl rfl rfl ?_ ⟨hq, hk⟩ ?_ ?_
      · cases k <;> simp_all [St.setpc, unitPc] <;> omega
      · simp [hgi]
      · simp [rHold, St.setpc, upd, hgi, hk]
  | grant b => exact absurd rfl (hng b)
  | notify l =>
    cases l with
    | cons t l => exact absurd rfl (hnn t l)
    | nil =>
      simp only [stepWake] at hs
      cases hs
      refine inv_finish (s0 := s) hi h hpc ⟨rfl, rfl, rfl, rfl⟩ (.inl ⟨rfl, rfl⟩) ?_ rfl
      cases k <;> simp [unitPc]
  | pulse t g l =>
    simp only [stepWake] at hs
    simp only [wfPc] at hwf
    split at hs <;> cases hs
    · refine inv_wake1 hi h hpc rfl rfl rfl rfl rfl rfl rfl rfl ?_ ⟨hwf.1, hwf.2.2⟩ ?_ ?_
      · cases k <;> simp [St.setpc, unitPc]
      · cases k <;> simp_all [grOk]
      · simp only [rHold, St.setpc, upd, if_true]
        intro hh; left
        rw [hpc]
        grind
    · exact ⟨h.cnt, h.lkcs, h.out, h.qnd, h.qw, h.qr, h.grO, h.ntgr,
        by intro t; have := h.wf t; rwa [wfPc_congr rfl rfl rfl], h.ex⟩

theorem wfPc_ncs {s s' : St} {p : PC} (h : cs p = false) (hw : wfPc s p) : wfPc s' p := by
  unfold wfPc at *
  split <;> simp_all [cs]

theorem inv_notify {B : Int} {n i t : Nat} {l : List Nat} {s s' : St} {k : Cont} (hi : i < n)
    (h : Inv B n s) (hpc : s.pc i = .wake (.notify (t :: l)) k)
    (hs : stepWake B s i k (.notify (t :: l)) = some s') : Inv B n s' := by
  have hwf := h.wf i
  rw [hpc] at hwf
  simp only [wfPc, List.nodup_cons] at hwf
  simp only [stepWake] at hs
  cases hs
  have hone : ∀ j, j ≠ i → cs (s.pc j) = false := by
    intro j hj
    have h1 := h.lkcs i; have h2 := h.lkcs j
    rw [hpc] at h1
    have : s.lk = some i := h1.mpr rfl
    cases hc : cs (s.pc j)
    · rfl
    · have := h2.mpr hc; grind
  have e := sums_pc (s := s) (s' := { s with nt := upd s.nt t true, pc := upd s.pc i (.wake (.pulse t (s.gen t) l) k) })
    hi rfl rfl
  have hu : unitPc (.wake (.pulse t (s.gen t) l) k) = unitPc (s.pc i) := by
    rw [hpc]; cases k <;> rfl
  have hw : wrPc (.wake (.pulse t (s.gen t) l) k) = wrPc (s.pc i) := by
    rw [hpc]; rfl
  rw [hu, hw] at e
  have hx := h.ex
  have hgi := h.grO i
  rw [hpc] at hgi
  constructor
  · have e1 := e.1; have e2 := e.2
    have : sumN (unit _) n = sumN (unit s) n := Nat.add_right_cancel e1
    rw [this]
    have : sumN (wr _) n = sumN (wr s) n := Nat.add_right_cancel e2
    rw [this]
    exact h.cnt
  all_goals simp only [upd]
  · intro j; have := h.lkcs j; by_cases hj : j = i
    · subst hj; rw [if_pos rfl]; rw [hpc] at this; simpa [cs] using this
    · rw [if_neg hj]; exact this
  · intro j hj; rw [if_neg (by omega)]; exact h.out j hj
  · exact h.qnd
  · intro j; have := h.qw j; by_cases hj : j = i
    · subst hj; rw [if_pos rfl, this, hpc]; cases k <;> simp [inW]
    · rw [if_neg hj]; exact this
  · intro j; have := h.qr j; by_cases hj : j = i
    · subst hj; rw [if_pos rfl, this, hpc]; cases k <;> simp [inR]
    · rw [if_neg hj]; exact this
  · intro j; have := h.grO j; by_cases hj : j = i
    · subst hj; rw [if_pos rfl]; cases k <;> simp_all [grOk]
    · rw [if_neg hj]; exact this
  · intro j; by_cases hj : j = t
    · subst hj; simp [(hwf.2 j (by simp)).1]
    · rw [if_neg hj]; exact h.ntgr j
  · intro j; by_cases hj : j = i
    · subst hj; rw [if_pos rfl]
      refine ⟨hwf.1.2, hwf.1.1, ?_⟩
      intro t' ht'
      have := hwf.2 t' (by simp [ht'])
      have hne : t' ≠ t := by intro hh; subst hh; exact hwf.1.1 ht'
      simp [this, hne, upd]
    · rw [if_neg hj]; exact wfPc_ncs (hone j hj) (h.wf j)
  · intro a b ha hab
    have hai : a ≠ i := by intro hh; subst hh; simp at ha
    rw [if_neg hai] at ha
    have := hx a b ha hab
    by_cases hb : b = i
    · subst hb; rw [if_pos rfl]
      refine ⟨by simp, fun hh => this.2 ?_⟩
      simp only [rHold, upd, if_true] at hh ⊢
      rw [hpc]; grind
    · rw [if_neg hb]
      refine ⟨this.1, fun hh => this.2 ?_⟩
      simpa [rHold, hb, upd] using hh

theorem mem_leading {q : List (Nat × Bool)} {t : Nat} (h : t ∈ leading q) : (t, false) ∈ q := by
  simp only [leading, List.mem_map] at h
  obtain ⟨⟨a, b⟩, h1, rfl⟩ := h
  induction q with
  | nil => simp at h1
  | cons e q ih =>
    obtain ⟨x, y⟩ := e
    cases y <;> simp at h1 ⊢
    grind

theorem leading_rest (q : List (Nat × Bool)) : (leading q) ++ (rest q).map (·.1) = q.map (·.1) := by
  simp only [leading, rest, ← List.map_append, List.takeWhile_append_dropWhile]

theorem mem_rest {q : List (Nat × Bool)} {e : Nat × Bool} (hd : (q.map (·.1)).Nodup) :
    e ∈ rest q ↔ e ∈ q ∧ e.1 ∉ leading q := by
  have hl := leading_rest q
  rw [← hl] at hd
  have hm : e ∈ q ↔ e ∈ q.takeWhile (fun e => !e.2) ∨ e ∈ rest q := by
    rw [rest, ← List.mem_append, List.takeWhile_append_dropWhile]
  have hd := List.nodup_append.mp hd
  constructor
  · intro h
    refine ⟨hm.mpr (.inr h), fun hh => ?_⟩
    exact hd.2.2 _ hh _ (List.mem_map_of_mem (f := (·.1)) h) rfl
  · rintro ⟨h1, h2⟩
    rcases hm.mp h1 with h | h
    · exact absurd (List.mem_map_of_mem (f := (·.1)) h) h2
    · exact h

theorem inv_grant {B : Int} {n i : Nat} {b : Bool} {s s' : St} {k : Cont} (hi : i < n)
    (h : Inv B n s) (hpc : s.pc i = .wake (.grant b) k)
    (hs : stepWake B s i k (.grant b) = some s') : Inv B n s' := by
  have hwf := h.wf i
  rw [hpc] at hwf
  simp only [wfPc] at hwf
  simp only [stepWake] at hs
  cases hs
  have hone : ∀ j, j ≠ i → cs (s.pc j) = false := by
    intro j hj
    have h1 := h.lkcs i; have h2 := h.lkcs j
    rw [hpc] at h1
    have : s.lk = some i := h1.mpr rfl
    cases hc : cs (s.pc j)
    · rfl
    · have := h2.mpr hc; grind
  have hlq : ∀ t ∈ leading s.q, inR (s.pc t) = true ∧ s.gr t = false := fun t ht => (h.qr t).mp (mem_leading ht)
  have hln : ∀ t ∈ leading s.q, t < n := by
    intro t ht
    rcases Nat.lt_or_ge t n with h1 | h1
    · exact h1
    · have := (hlq t ht).1; rw [h.out t h1] at this; simp [inR] at this
  have hnd : (leading s.q).Nodup := by
    have := h.qnd; rw [← leading_rest] at this; exact (List.nodup_append.mp this).1
  have hno : ∀ a, s.pc a ≠ .holdW := by
    intro a ha
    have hia : i ≠ a := by intro hh; subst hh; simp [hpc] at ha
    exact (h.ex a i ha hia).2 (.inr (.inr (.inl ⟨b, k, hpc⟩)))
  have hgi : s.gr i = false := by
    cases hg : s.gr i
    · rfl
    · have := h.grO i hg; simp [hpc, grOk] at this
  -- sums
  have e1 := sumN_one i n hi
    (fun j => unitPc (upd s.pc i (.wake (.notify (leading s.q)) k) j) + if s.gr j then 1 else 0) (unit s)
    (by intro j hj; simp [unit, upd, hj])
  have e2 : sumN (fun j => (unitPc (upd s.pc i (.wake (.notify (leading s.q)) k) j) + if s.gr j then 1 else 0)
      + if j ∈ leading s.q then 1 else 0) n = _ := sumN_add _ _ n
  rw [sumN_mem _ _ hnd hln] at e2
  have e3 : sumN (unit { s with
      count := s.count + (leading s.q).length - (if b then 1 else 0) + (if rest s.q = [] then B else 0)
      q := rest s.q
      gr := fun t => if t ∈ (leading s.q) then true else s.gr t
      pc := upd s.pc i (.wake (.notify (leading s.q)) k) }) n = sumN (fun j => unitPc (upd s.pc i (.wake (.notify (leading s.q)) k) j) + if s.gr j then 1 else 0) n +
        (leading s.q).length := by
    refine Eq.trans (sumN_congr ?_) e2
    intro j _
    simp only [unit]
    by_cases hj : j ∈ leading s.q
    · simp [hj, (hlq j hj).2]
    · simp [hj]
  have e4 : sumN (wr { s with
      count := s.count + (leading s.q).length - (if b then 1 else 0) + (if rest s.q = [] then B else 0)
      q := rest s.q
      gr := fun t => if t ∈ (leading s.q) then true else s.gr t
      pc := upd s.pc i (.wake (.notify (leading s.q)) k) }) n = sumN (wr s) n := by
    refine sumN_congr ?_
    intro j _
    simp only [wr, upd]; split
    · rename_i hj; subst hj; rw [hpc]; rfl
    · rfl
  have hu : (unit s i : Int) = (if b then 1 else 0 : Int) + unitPc (.wake (.notify (leading s.q)) k) := by
    have := hwf.2
    simp only [unit, hgi, hpc]
    cases b <;> cases k <;> simp_all [unitPc]
  constructor
  · rw [e3, e4]
    have hq1 : qbias s.q = 1 := by simp [qbias, headReader_ne hwf.1]
    have hc := h.cnt
    rw [hq1] at hc
    simp only [upd, if_true, hgi] at e1
    simp only [qbias]
    have e1' : (sumN (fun j => unitPc (upd s.pc i (.wake (.notify (leading s.q)) k) j) + if s.gr j then 1 else 0) n : Int)
      = sumN (unit s) n + unitPc (.wake (.notify (leading s.q)) k) - unit s i := by
      simp only [upd] at *
      simp at e1
      omega
    simp only [Int.natCast_add, e1', hu, hc, Int.mul_add]
    by_cases hr : rest s.q = [] <;> simp only [hr, if_true, if_false] <;> omega
  · intro j; have := h.lkcs j; by_cases hj : j = i
    · subst hj; rw [hpc] at this; simpa [cs, upd] using this
    · simp only [upd]; rw [if_neg hj]; exact this
  · intro j hj; simp only [upd]; rw [if_neg (by omega)]; exact h.out j hj
  · have := h.qnd; rw [← leading_rest] at this; exact (List.nodup_append.mp this).2.1
  · intro j
    simp only [mem_rest h.qnd, h.qw j]
    simp only [upd]
    by_cases hj : j = i
    · subst hj; rw [if_pos rfl, hpc]
      constructor
      · intro hh; revert hh; cases k <;> simp [inW]
      · intro hh
        refine ⟨by revert hh; cases k <;> simp [inW], fun hl => ?_⟩
        have := (hlq _ hl).1
        rw [hpc] at this; revert hh this; cases k <;> simp [inW, inR]
    · rw [if_neg hj]
      constructor
      · exact fun hh => hh.1
      · intro hh; refine ⟨hh, fun hl => ?_⟩
        have := (hlq _ hl).1
        revert hh this; cases s.pc j <;> simp [inR, inW]
        rename_i w k; cases k <;> simp [inR, inW]
  · intro j
    simp only [mem_rest h.qnd, h.qr j]
    simp only [upd]
    by_cases hl : j ∈ leading s.q
    · simp [hl]
    · simp only [hl, not_false_eq_true, and_true, if_false]
      by_cases hj : j = i
      · subst hj; rw [if_pos rfl, hpc]; cases k <;> simp [inR]
      · rw [if_neg hj]
  · intro j; simp only [upd]
    by_cases hl : j ∈ leading s.q
    · intro _
      have := hlq j hl
      by_cases hj : j = i
      · subst hj; rw [if_pos rfl]; rw [hpc] at this; revert this; cases k <;> simp [inR, grOk]
      · rw [if_neg hj]
        have hc := hone j hj
        have hw := h.wf j
        revert this hc hw; cases s.pc j <;> simp [inR, grOk, cs]
        rename_i w k; cases k <;> cases w <;> simp [cs, inR, wfPc]
    · simp only [hl, if_false]
      intro hh
      have hj : j ≠ i := by intro hj; subst hj; simp [hgi] at hh
      rw [if_neg hj]; exact h.grO j hh
  · intro j hj; have := h.ntgr j hj; simp [this]
  · intro j; simp only [upd]; by_cases hj : j = i
    · subst hj; rw [if_pos rfl]
      refine ⟨hnd, fun t ht => ⟨by simp [ht], ?_⟩⟩
      cases hn : s.nt t
      · rfl
      · have := h.ntgr t hn; simp [(hlq t ht).2] at this
    · rw [if_neg hj]; exact wfPc_ncs (hone j hj) (h.wf j)
  · intro a c ha hac
    simp only [upd] at ha
    split at ha
    · simp at ha
    · exact absurd ha (hno a)


theorem inv_enq {B : Int} {n i : Nat} {s s' : St} {p p' : PC} {b : Bool} (hi : i < n) (h : Inv B n s)
    (hpc : s.pc i = p) (hp0 : inW p = false ∧ inR p = false) (hlk : s.lk = none)
    (hp : s'.pc = upd s.pc i p') (hq : s'.q = s.q ++ [(i, b)]) (hg : s'.gr = s.gr) (hn : s'.nt = s.nt)
    (hl' : s'.lk = if cs p' then some i else none)
    (hc : s'.count = s.count - unitPc p + B * wrPc p - (if s.q = [] then B else 0))
    (hW : inW p' = b) (hR : inR p' = !b) (hu : unitPc p' = 0) (hw : wrPc p' = 0)
    (hng : p' ≠ .holdR ∧ (∀ b k, p' ≠ .wake (.grant b) k) ∧ (∀ w, p' ≠ .wake w .toHoldR))
    (hwf : wfPc s' p') : Inv B n s' := by
  have e := sums_pc hi hg hp
  have hone : ∀ j, cs (s.pc j) = false := by
    intro j
    have h2 := h.lkcs j
    rw [hlk] at h2
    cases hc : cs (s.pc j)
    · rfl
    · have := h2.mpr hc; simp at this
  have hgi : s.gr i = false := by
    cases hgi : s.gr i
    · rfl
    · have := h.grR i hgi; rw [hpc] at this; simp [hp0.2] at this
  have hiq : ∀ b, (i, b) ∉ s.q := by
    intro b hb
    cases b
    · have := (h.qr i).mp hb; rw [hpc] at this; simp [hp0.2] at this
    · have := (h.qw i).mp hb; rw [hpc] at this; simp [hp0.1] at this
  have hp'W : p' ≠ .holdW := by intro hh; subst hh; simp [wrPc] at hw
  subst hpc
  constructor
  · have e1 : (sumN (unit s') n : Int) = sumN (unit s) n - unitPc (s.pc i) := by omega
    have e2 : (sumN (wr s') n : Int) = sumN (wr s) n - wrPc (s.pc i) := by omega
    rw [hc, e1, e2, hq, h.cnt]
    simp only [qbias, Int.mul_add, Int.mul_sub]
    by_cases hqe : s.q = [] <;> simp [hqe] <;> omega
  · intro j; rw [hl', hp]; simp only [upd]
    by_cases hj : j = i
    · subst hj; simp
    · have := hone j; rw [if_neg hj, this]; split <;> simp [Ne.symm hj]
  · intro j hj; rw [hp]; simp only [upd]; rw [if_neg (by omega)]; exact h.out j hj
  · rw [hq]
    simp only [List.map_append, List.map_cons, List.map_nil]
    rw [List.nodup_append]
    refine ⟨h.qnd, by simp, ?_⟩
    intro a ha c hc
    simp at hc; subst hc
    simp only [List.mem_map] at ha
    obtain ⟨⟨x, y⟩, h1, rfl⟩ := ha
    intro hh; simp at hh; subst hh; exact hiq _ h1
  · intro j; rw [hq, hp]; simp only [upd, List.mem_append, List.mem_singleton, Prod.mk.injEq]
    by_cases hj : j = i
    · subst hj; simp [hiq, hW]
    · simp [hj, h.qw j]
  · intro j; rw [hq, hp, hg]; simp only [upd, List.mem_append, List.mem_singleton, Prod.mk.injEq]
    by_cases hj : j = i
    · subst hj; simp [hiq, hR, hgi]
    · simp [hj, h.qr j]
  · intro j; rw [hp, hg]; simp only [upd]
    by_cases hj : j = i
    · subst hj; simp [hgi]
    · rw [if_neg hj]; exact h.grO j
  · intro j; rw [hn, hg]; exact h.ntgr j
  · intro j; rw [hp]; simp only [upd]
    by_cases hj : j = i
    · subst hj; rw [if_pos rfl]; exact hwf
    · rw [if_neg hj]; exact wfPc_ncs (hone j) (h.wf j)
  · intro a c ha hac
    rw [hp] at ha ⊢
    simp only [upd] at ha ⊢
    by_cases hai : a = i
    · subst hai; rw [if_pos rfl] at ha; exact absurd ha hp'W
    rw [if_neg hai] at ha
    by_cases hci : c = i
    · subst hci; rw [if_pos rfl]; refine ⟨hp'W, ?_⟩
      simp only [rHold, hp, upd, if_true, hg, hgi]
      grind
    · rw [if_neg hci]
      have := h.ex a c ha hac
      refine ⟨this.1, fun hh => this.2 ?_⟩
      simpa [rHold, hp, hg, upd, hci] using hh

theorem inv_rexit {B : Int} {n i : Nat} {s : St} (hi : i < n) (h : Inv B n s)
    (hpc : s.pc i = .rChk) (hn : s.nt i = true) :
    Inv B n { s with pc := upd s.pc i .holdR, gr := upd s.gr i false, nt := upd s.nt i false
                     gen := upd s.gen i (s.gen i + 1) } := by
  have hg := h.ntgr i hn
  generalize hs2 : ({ s with pc := upd s.pc i .holdR, gr := upd s.gr i false, nt := upd s.nt i false
                             gen := upd s.gen i (s.gen i + 1) } : St) = s2
  have e1 := sumN_one i n hi (unit s2) (unit s)
    (by intro j hj; simp [← hs2, unit, upd, hj])
  have e2 := sumN_one i n hi (wr s2) (wr s)
    (by intro j hj; simp [← hs2, wr, upd, hj])
  have u2 : unit s2 i = 1 := by simp [← hs2, unit, upd, unitPc]
  have w2 : wr s2 i = 0 := by simp [← hs2, wr, upd, wrPc]
  have u1 : unit s i = 1 := by simp [unit, hpc, unitPc, hg]
  have w1 : wr s i = 0 := by simp [wr, hpc, wrPc]
  constructor
  · rw [u1, u2] at e1; rw [w1, w2] at e2
    have e1 := Nat.add_right_cancel e1
    have e2 := Nat.add_right_cancel e2
    rw [e1, e2, ← hs2]; exact h.cnt
  all_goals subst hs2
  · intro j; simp only [upd]; by_cases hj : j = i
    · subst hj; simp [cs]; have := h.lkcs j; rw [hpc] at this; simp [cs] at this; exact this
    · rw [if_neg hj]; exact h.lkcs j
  · intro j hj; simp only [upd]; rw [if_neg (by omega)]; exact h.out j hj
  · exact h.qnd
  · intro j; simp only [upd]; by_cases hj : j = i
    · subst hj; simp [inW]; have := h.qw j; rw [hpc] at this; simpa [inW] using this
    · rw [if_neg hj]; exact h.qw j
  · intro j; simp only [upd]; by_cases hj : j = i
    · subst hj; simp [inR]; have := h.qr j; rw [hg] at this; simpa [inR] using this
    · rw [if_neg hj, if_neg hj]; exact h.qr j
  · intro j; simp only [upd]; by_cases hj : j = i
    · subst hj; simp
    · rw [if_neg hj, if_neg hj]; exact h.grO j
  · intro j; simp only [upd]; by_cases hj : j = i
    · subst hj; simp
    · rw [if_neg hj, if_neg hj]; exact h.ntgr j
  · intro j; have hw := h.wf j
    simp only [upd]; by_cases hj : j = i
    · subst hj; simp [wfPc]
    · rw [if_neg hj]
      revert hw; generalize s.pc j = p
      unfold wfPc
      split <;> grind [upd]
  · intro a c ha hac
    simp only [upd] at ha ⊢
    by_cases hai : a = i
    · subst hai; simp at ha
    rw [if_neg hai] at ha
    by_cases hci : c = i
    · subst hci
      exact absurd (.inr (.inl hg)) (h.ex a c ha hac).2
    · rw [if_neg hci]
      have := h.ex a c ha hac
      refine ⟨this.1, fun hh => this.2 ?_⟩
      simpa [rHold, upd, hci] using hh

theorem inv_wacq {B : Int} {n i : Nat} {s : St} {c : Int} (hB : (n : Int) < B) (hi : i < n) (h : Inv B n s)
    (hpc : s.pc i = .wLoop c) (hc : s.count = -B) (q' : List (Nat × Bool))
    (hq' : q' = s.q.filter (fun e => e.1 ≠ i)) :
    Inv B n (({ s with count := -B + 1 + (if q' = [] then 0 else -B), q := q' }.setpc i .holdW).release) := by
  have hA := h.A_lt
  have hA' : (sumN (unit s) n : Int) < B := by omega
  have hin : (i, true) ∈ s.q := (h.qw i).mpr (by rw [hpc]; rfl)
  have hb : qbias s.q = 1 := by simp [qbias]; intro hh; simp [hh] at hin
  have hz := ar_eq (K := 1) hA' h.cnt (by omega)
  have hW : sumN (wr s) n = 0 := by omega
  have e := sums_pc (s := s) (p := .holdW)
    (s' := (({ s with count := -B + 1 + (if q' = [] then 0 else -B), q := q' }.setpc i .holdW).release)) hi rfl rfl
  rw [hz.1, hW, hpc] at e
  simp only [unitPc, wrPc, Nat.zero_add, Nat.add_zero] at e
  have hgi : s.gr i = false := by
    cases hgi : s.gr i
    · rfl
    · have := h.grO i hgi; rw [hpc] at this; simp [grOk] at this
  have hone : ∀ j, j ≠ i → cs (s.pc j) = false := by
    intro j hj
    have h1 := h.lkcs i; have h2 := h.lkcs j
    rw [hpc] at h1
    have : s.lk = some i := h1.mpr rfl
    cases hc : cs (s.pc j)
    · rfl
    · have := h2.mpr hc; grind
  have hm : ∀ e, e ∈ q' ↔ e ∈ s.q ∧ e.1 ≠ i := by intro e; rw [hq']; simp
  constructor
  · rw [e.1, e.2]
    simp only [St.setpc, St.release, qbias]
    by_cases hr : q' = [] <;> simp [hr, Int.mul_add] <;> omega
  all_goals simp only [St.setpc, St.release, upd]
  · intro j; by_cases hj : j = i
    · subst hj; simp [cs]
    · rw [if_neg hj, hone j hj]; simp
  · intro j hj; rw [if_neg (by omega)]; exact h.out j hj
  · rw [hq']
    exact (List.Sublist.map _ (List.filter_sublist)).nodup h.qnd
  · intro j; rw [hm]; by_cases hj : j = i
    · subst hj; simp [inW]
    · rw [if_neg hj]; simp [hj, h.qw j]
  · intro j; rw [hm]; by_cases hj : j = i
    · subst hj; simp [inR]
    · rw [if_neg hj]; simp [hj, h.qr j]
  · intro j; by_cases hj : j = i
    · subst hj; simp [hgi]
    · rw [if_neg hj]; exact h.grO j
  · exact h.ntgr
  · intro j; by_cases hj : j = i
    · subst hj; simp [wfPc]
    · rw [if_neg hj]; exact wfPc_ncs (hone j hj) (h.wf j)
  · intro a d ha had
    have hd := noU h hz.1 d
    by_cases hdi : d = i
    · subst hdi; rw [if_neg (Ne.symm had)] at ha; exact absurd ha (noU h hz.1 a).1
    · rw [if_neg hdi]
      refine ⟨hd.1, fun hh => hd.2 ?_⟩
      simpa [rHold, hdi, upd] using hh

theorem inv_step {B : Int} {n i : Nat} {s s' : St} {a : Act} (hB : (n : Int) < B) (hi : i < n) (h : Inv B n s)
    (hs : step B s i a = some s') : Inv B n s' := by
  cases hpc : s.pc i with
  | idle => exact inv_idle hB hi h hpc hs
  | holdR => exact inv_hold hi h (.inl hpc) hs
  | holdW => exact inv_hold hi h (.inr hpc) hs
  | rSlow =>
    simp only [step, hpc] at hs
    split at hs
    · simp at hs
    cases a <;> simp only at hs <;> try contradiction
    split at hs
    · simp at hs
    rename_i hl
    have hl : s.lk = none := by simpa using hl
    generalize ha : (if s.q = [] then _ else _ : Int) = adj at hs
    split at hs <;> cases hs
    · refine inv_enq (b := false) hi h hpc ⟨rfl, rfl⟩ hl rfl rfl rfl rfl ?_ ?_ rfl rfl rfl rfl ?_ ?_
      · simp [cs, St.setpc]
      · simp only [St.setpc]; simp [unitPc, wrPc, ← ha]; split <;> omega
      · simp
      · simp [wfPc, St.setpc]
    · refine inv_enq (b := false) hi h hpc ⟨rfl, rfl⟩ hl rfl rfl rfl rfl ?_ ?_ rfl rfl rfl rfl ?_ ?_
      · simp [cs, St.release]
      · simp only [St.setpc, St.release]; simp [unitPc, wrPc, ← ha]; split <;> omega
      · simp
      · simp [wfPc]
  | rChk =>
    simp only [step, hpc] at hs
    split at hs
    · simp at hs
    cases a <;> simp only at hs <;> try contradiction
    split at hs <;> cases hs
    · rename_i hn; exact inv_rexit hi h hpc hn
    · refine inv_simple hi h hpc rfl rfl rfl rfl ?_ rfl rfl (.inl ⟨rfl, rfl⟩) ?_ ?_ ?_ ?_
      all_goals simp [St.setpc, unitPc, wrPc, wfPc, grOk]
      simp [rHold, upd]; exact fun hh => .inl (.inr (.inl hh))
  | rBlk =>
    simp only [step, hpc] at hs
    split at hs
    · simp at hs
    cases a <;> simp only at hs <;> try contradiction
    · split at hs <;> cases hs
      refine inv_simple hi h hpc rfl rfl rfl rfl ?_ rfl rfl (.inl ⟨rfl, rfl⟩) ?_ ?_ ?_ ?_
      all_goals simp [St.setpc, unitPc, wrPc, wfPc, grOk]
      simp [rHold, upd]; exact fun hh => .inl (.inr (.inl hh))
    · cases hs
      refine inv_simple hi h hpc rfl rfl rfl rfl ?_ rfl rfl (.inl ⟨rfl, rfl⟩) ?_ ?_ ?_ ?_
      all_goals simp [St.setpc, unitPc, wrPc, wfPc, grOk]
      simp [rHold, upd]; exact fun hh => .inl (.inr (.inl hh))
  | wSlow =>
    simp only [step, hpc] at hs
    split at hs
    · simp at hs
    cases a <;> simp only at hs <;> try contradiction
    split at hs
    · simp at hs
    rename_i hl
    have hl : s.lk = none := by simpa using hl
    generalize ha : (if s.q = [] then _ else _ : Int) = adj at hs
    split at hs <;> cases hs
    · refine inv_enq (b := true) hi h hpc ⟨rfl, rfl⟩ hl rfl rfl rfl rfl ?_ ?_ rfl rfl rfl rfl ?_ ?_
      · simp [cs, St.setpc]
      · simp only [St.setpc]; simp [unitPc, wrPc, ← ha]; split <;> omega
      · simp
      · simp [wfPc, St.setpc]
    · refine inv_enq (b := true) hi h hpc ⟨rfl, rfl⟩ hl rfl rfl rfl rfl ?_ ?_ rfl rfl rfl rfl ?_ ?_
      · simp [cs, St.setpc]
      · simp only [St.setpc]; simp [unitPc, wrPc, ← ha]; split <;> omega
      · simp
      · simp [wfPc]
  | wLoop c =>
    simp only [step, hpc] at hs
    split at hs
    · simp at hs
    cases a <;> simp only at hs <;> try contradiction
    split at hs <;> cases hs
    · rename_i hc; exact inv_wacq hB hi h hpc hc.2 _ rfl
    · refine inv_simple hi h hpc rfl rfl rfl rfl ?_ rfl rfl (.inr (.inr ⟨rfl, rfl, rfl⟩)) ?_ ?_ ?_ ?_
      · simp [St.setpc, St.release, unitPc, wrPc]
      · simp [wfPc]
      · intro hh; have := h.grO i hh; simp [hpc, grOk] at this
      · simp
      · simp [rHold, St.setpc, St.release, upd]; exact fun hh => .inl (.inr (.inl hh))
  | wBlk =>
    have hgi : s.gr i = false := by
      cases hg : s.gr i
      · rfl
      · have := h.grO i hg; simp [hpc, grOk] at this
    simp only [step, hpc] at hs
    split at hs
    · simp at hs
    cases a <;> simp only at hs <;> try contradiction
    · split at hs <;> cases hs
      refine inv_simple hi h hpc rfl rfl rfl rfl ?_ rfl rfl (.inl ⟨rfl, rfl⟩) ?_ ?_ ?_ ?_
      all_goals simp [St.setpc, unitPc, wrPc, wfPc, hgi, rHold, upd]
    · cases hs
      refine inv_simple hi h hpc rfl rfl rfl rfl ?_ rfl rfl (.inl ⟨rfl, rfl⟩) ?_ ?_ ?_ ?_
      all_goals simp [St.setpc, unitPc, wrPc, wfPc, hgi, rHold, upd]
  | wRelock =>
    have hgi : s.gr i = false := by
      cases hg : s.gr i
      · rfl
      · have := h.grO i hg; simp [hpc, grOk] at this
    simp only [step, hpc] at hs
    split at hs
    · simp at hs
    cases a <;> simp only at hs <;> try contradiction
    split at hs
    · simp at hs
    rename_i hl
    have hl : s.lk = none := by simpa using hl
    cases hs
    refine inv_simple hi h hpc rfl rfl rfl rfl ?_ rfl rfl (.inr (.inl ⟨rfl, rfl, hl, rfl⟩)) ?_ ?_ ?_ ?_
    all_goals simp [St.setpc, unitPc, wrPc, wfPc, hgi, rHold, upd]
  | wake w k =>
    simp only [step, hpc] at hs
    split at hs
    · simp at hs
    cases a <;> simp only at hs <;> try contradiction
    by_cases h1 : ∃ b, w = .grant b
    · obtain ⟨b, rfl⟩ := h1; exact inv_grant hi h hpc hs
    by_cases h2 : ∃ t l, w = .notify (t :: l)
    · obtain ⟨t, l, rfl⟩ := h2; exact inv_notify hi h hpc hs
    exact inv_wake hB hi h (fun b hb => h1 ⟨b, hb⟩) (fun t l hb => h2 ⟨t, l, hb⟩) hpc hs

theorem inv_reach {B : Int} {n : Nat} {s : St} (hB : (n : Int) < B) (h : Reach B n s) : Inv B n s := by
  induction h with
  | init => exact inv_init B n
  | step i a hi _ hs ih => exact inv_step hB hi ih hs

end Verif.RwLock
