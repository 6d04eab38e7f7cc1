import Verif.Bitmap
/-!
  Properties C15–C17: lib/bitmap.c behaves as a set of indices.
-/
namespace Verif.Bitmap

/-! ## Specification: a bitmap of `n` bits is a function from indices to booleans -/
namespace Spec

inductive Op where
  | set (i : Nat)
  | clear (i : Nat)
  | reset
  deriving DecidableEq, Repr

/-- Effect of one call on the set of indices below `n`. -/
def step (n : Nat) (s : Nat → Bool) : Op → (Nat → Bool)
  | .set i => fun j => if j = i ∧ i < n then true else s j
  | .clear i => fun j => if j = i ∧ i < n then false else s j
  | .reset => fun _ => false

def run (n : Nat) (ops : List Op) : Nat → Bool := ops.foldl (step n) (fun _ => false)

end Spec
open Spec

/-! ## Running the model -/

def exec (b : Bitmap) : Op → Bitmap
  | .set i => b.set i
  | .clear i => b.clear i
  | .reset => b.reset

def execAll (b : Bitmap) (ops : List Op) : Bitmap := ops.foldl exec b

/-- Indices passed to a call are `uint8_t`. -/
def Op.inRange : Op → Prop
  | .set i => i < 256
  | .clear i => i < 256
  | .reset => True

/-! ## Proofs -/

/-- Bit `i` of the byte array. -/
def bitAt (arr : List (BitVec 8)) (i : Nat) : Bool := (arr.getD (i / 8) 0#8).getLsbD (i % 8)

/-- Invariant: array length matches, count is a non-zero uint8_t, padding bits are clear. -/
structure WF (b : Bitmap) : Prop where
  pos : 0 < b.cnt
  lt : b.cnt < 256
  len : b.arr.length = arrCnt b.cnt
  pad : ∀ i, b.cnt ≤ i → bitAt b.arr i = false

theorem mask_lsb (k j : Nat) (hk : k < 8) (hj : j < 8) : (1#8 <<< k).getLsbD j = decide (j = k) := by
  rw [BitVec.getLsbD_shiftLeft, BitVec.getLsbD_one]
  simp only [hj, decide_true, Bool.true_and]
  by_cases h : j = k
  · subst h; simp
  · simp only [h, decide_false]
    by_cases h' : j < k
    · simp [h']
    · have : ¬ (j - k = 0) := by omega
      simp [this]

theorem and_mask (v : BitVec 8) (k : Nat) (hk : k < 8) :
    (v &&& (1#8 <<< k) != 0#8) = v.getLsbD k := by
  cases hv : v.getLsbD k
  · have : v &&& (1#8 <<< k) = 0#8 := by
      apply BitVec.eq_of_getLsbD_eq
      intro i hi
      rw [BitVec.getLsbD_and, mask_lsb k i hk hi]
      by_cases h : i = k
      · subst h; simp [hv]
      · simp [h]
    simp [this]
  · have : v &&& (1#8 <<< k) ≠ 0#8 := by
      intro h
      have h2 := congrArg (fun w => BitVec.getLsbD w k) h
      simp only [BitVec.getLsbD_and, mask_lsb k k hk hk, hv] at h2
      simp at h2
    simp [this]

theorem getD_set (l : List (BitVec 8)) (i j : Nat) (v : BitVec 8) (hi : i < l.length) :
    (l.set i v).getD j 0#8 = if j = i then v else l.getD j 0#8 := by
  rw [List.getD_eq_getElem?_getD, List.getD_eq_getElem?_getD, List.getElem?_set]
  by_cases h : i = j
  · subst h; simp [hi]
  · have : ¬ j = i := fun e => h e.symm
    simp [h, this]

theorem div_mod_eq {i j : Nat} (h1 : j / 8 = i / 8) (h2 : j % 8 = i % 8) : j = i := by omega

theorem bitAt_set (arr : List (BitVec 8)) (i j : Nat) (hi : i / 8 < arr.length) :
    bitAt (arr.set (i / 8) (arr.getD (i / 8) 0#8 ||| (1#8 <<< (i % 8)))) j
      = if j = i then true else bitAt arr j := by
  unfold bitAt
  rw [getD_set _ _ _ _ hi]
  by_cases h : j / 8 = i / 8
  · rw [if_pos h, BitVec.getLsbD_or, mask_lsb _ _ (Nat.mod_lt _ (by decide)) (Nat.mod_lt _ (by decide))]
    by_cases h2 : j % 8 = i % 8
    · simp [div_mod_eq h h2]
    · have : j ≠ i := fun e => h2 (by rw [e])
      simp [h2, this, h]
  · have : j ≠ i := fun e => h (by rw [e])
    simp [h, this]

theorem bitAt_clear (arr : List (BitVec 8)) (i j : Nat) (hi : i / 8 < arr.length) :
    bitAt (arr.set (i / 8) (arr.getD (i / 8) 0#8 &&& ~~~(1#8 <<< (i % 8)))) j
      = if j = i then false else bitAt arr j := by
  unfold bitAt
  rw [getD_set _ _ _ _ hi]
  have hlt : j % 8 < 8 := Nat.mod_lt _ (by decide)
  by_cases h : j / 8 = i / 8
  · rw [if_pos h, BitVec.getLsbD_and, BitVec.getLsbD_not, mask_lsb _ _ (Nat.mod_lt _ (by decide)) hlt]
    by_cases h2 : j % 8 = i % 8
    · simp [div_mod_eq h h2]
    · have : j ≠ i := fun e => h2 (by rw [e])
      simp [h2, this, h, hlt]
  · have : j ≠ i := fun e => h (by rw [e])
    simp [h, this]

theorem bitAt_replicate (n i : Nat) : bitAt (List.replicate n 0#8) i = false := by
  unfold bitAt
  rw [List.getD_eq_getElem?_getD, List.getElem?_replicate]
  split <;> simp

theorem wf_create {n : Nat} {b : Bitmap} (h : create n = some b) :
    WF b ∧ b.cnt = n % 256 ∧ ∀ i, bitAt b.arr i = false := by
  unfold create at h
  simp only at h
  split at h
  · simp at h
  · simp at h
    subst h
    have : n % 256 < 256 := Nat.mod_lt _ (by decide)
    exact ⟨⟨by simp; omega, this, by simp, fun i _ => bitAt_replicate _ _⟩, rfl, fun i => bitAt_replicate _ _⟩

theorem index_ok {b : Bitmap} (h : WF b) {i : Nat} (hi : i < b.cnt) : i / 8 < b.arr.length := by
  rw [h.len, arrCnt]; omega

theorem exec_spec {b : Bitmap} (h : WF b) (op : Op) (hop : Op.inRange op) :
    WF (exec b op) ∧ (exec b op).cnt = b.cnt ∧
      ∀ j, bitAt (exec b op).arr j = step b.cnt (bitAt b.arr) op j := by
  cases op with
  | set i =>
    have hm : i % 256 = i := Nat.mod_eq_of_lt hop
    by_cases hi : i ≥ b.cnt
    · have hn : ¬ i < b.cnt := by omega
      simp only [exec, Bitmap.set, hm, if_pos hi]
      exact ⟨h, by simp, fun j => by simp [step, hn]⟩
    · have hi' : i < b.cnt := by omega
      have hb := fun j => bitAt_set b.arr i j (index_ok h hi')
      simp only [exec, Bitmap.set, hm, if_neg hi]
      refine ⟨⟨h.pos, h.lt, by simpa using h.len, ?_⟩, by simp, ?_⟩
      · intro j hj
        rw [hb j]
        have : j ≠ i := by simp at hj; omega
        simp [this]; exact h.pad j hj
      · intro j; rw [hb j]; simp [step, hi']
  | clear i =>
    have hm : i % 256 = i := Nat.mod_eq_of_lt hop
    by_cases hi : i ≥ b.cnt
    · have hn : ¬ i < b.cnt := by omega
      simp only [exec, Bitmap.clear, hm, if_pos hi]
      exact ⟨h, by simp, fun j => by simp [step, hn]⟩
    · have hi' : i < b.cnt := by omega
      have hb := fun j => bitAt_clear b.arr i j (index_ok h hi')
      simp only [exec, Bitmap.clear, hm, if_neg hi]
      refine ⟨⟨h.pos, h.lt, by simpa using h.len, ?_⟩, by simp, ?_⟩
      · intro j hj
        rw [hb j]
        have : j ≠ i := by simp at hj; omega
        simp [this]; exact h.pad j hj
      · intro j; rw [hb j]; simp [step, hi']
  | reset =>
    refine ⟨⟨h.pos, h.lt, by simp [exec, Bitmap.reset, h.len], fun i _ => bitAt_replicate _ _⟩, rfl, ?_⟩
    intro j; simp only [exec, Bitmap.reset, step]; exact bitAt_replicate _ _

theorem step_congr (n : Nat) {s t : Nat → Bool} (h : ∀ j, s j = t j) (op : Op) (j : Nat) :
    step n s op j = step n t op j := by
  cases op <;> simp [step, h j]

theorem execAll_spec {b : Bitmap} (h : WF b) (ops : List Op) (hops : ∀ op ∈ ops, Op.inRange op)
    (s : Nat → Bool) (hs : ∀ j, bitAt b.arr j = s j) :
    WF (execAll b ops) ∧ (execAll b ops).cnt = b.cnt ∧
      ∀ j, bitAt (execAll b ops).arr j = ops.foldl (step b.cnt) s j := by
  induction ops generalizing b s with
  | nil => exact ⟨h, rfl, hs⟩
  | cons op ops ih =>
    obtain ⟨h1, h2, h3⟩ := exec_spec h op (hops op (by simp))
    obtain ⟨i1, i2, i3⟩ := ih h1 (fun o ho => hops o (by simp [ho])) (step b.cnt s op)
      (fun j => by rw [h3 j]; exact step_congr _ hs op j)
    refine ⟨i1, by rw [← h2]; exact i2, ?_⟩
    intro j
    have := i3 j
    rw [h2] at this
    exact this

theorem get_eq {b : Bitmap} (h : WF b) {i : Nat} (hi : i < b.cnt) : b.get i = .val (bitAt b.arr i) := by
  have hlt := h.lt
  have hm : i % 256 = i := Nat.mod_eq_of_lt (by omega)
  have hidx := index_ok h hi
  have hn : ¬ i > b.cnt := by omega
  unfold Bitmap.get
  simp only [hm, if_neg hn]
  rw [List.getElem?_eq_getElem hidx]
  simp only []
  rw [and_mask _ _ (Nat.mod_lt _ (by decide)), bitAt, List.getD_eq_getElem?_getD, List.getElem?_eq_getElem hidx]
  rfl

/-- C15. Creation succeeds exactly for counts that are not 0 modulo 256, and after any history of
    set/clear/reset calls, reading any index below the count gives the bit the history leaves in the
    corresponding set of indices; indices at or beyond the count never have an effect, and no call
    touches anything but the byte array of fixed length. -/
theorem C15_bitmap_set (n : Nat) (hn : n < 256) (ops : List Op) (hops : ∀ op ∈ ops, Op.inRange op) :
    (create n = none ↔ n = 0) ∧
    ∀ b, create n = some b →
      (execAll b ops).arr.length = b.arr.length ∧
      ∀ i < n, (execAll b ops).get i = .val (Spec.run n ops i) := by
  constructor
  · simp [create, Nat.mod_eq_of_lt hn]
  · intro b hb
    obtain ⟨hw, hc, hz⟩ := wf_create hb
    rw [Nat.mod_eq_of_lt hn] at hc
    obtain ⟨h1, h2, h3⟩ := execAll_spec hw ops hops (fun _ => false) (by simpa using hz)
    refine ⟨by rw [h1.len, hw.len, h2], ?_⟩
    intro i hi
    rw [get_eq h1 (by omega), h3 i, hc]
    rfl

/-! ### C16 -/

theorem scanByte_spec (cnt : Nat) (v : BitVec 8) : ∀ (n k bitpos : Nat), n + k = 8 →
    (∃ r : Nat, scanByte cnt v n k bitpos = .inl (r : Int) ∧ bitpos ≤ r ∧ r < cnt ∧ r < bitpos + n ∧
        v.getLsbD (k + (r - bitpos)) = false ∧
        ∀ j, bitpos ≤ j → j < r → v.getLsbD (k + (j - bitpos)) = true) ∨
    (scanByte cnt v n k bitpos = .inl (-1) ∧ cnt ≤ bitpos + n ∧
        ∀ j, bitpos ≤ j → j < cnt → v.getLsbD (k + (j - bitpos)) = true) ∨
    (scanByte cnt v n k bitpos = .inr (bitpos + n) ∧
        ∀ j, bitpos ≤ j → j < bitpos + n → v.getLsbD (k + (j - bitpos)) = true) := by
  intro n
  induction n with
  | zero =>
    intro k bitpos _
    right; right
    exact ⟨rfl, fun j h1 h2 => by omega⟩
  | succ n ih =>
    intro k bitpos hk
    rw [scanByte]
    by_cases h1 : bitpos ≥ cnt
    · right; left
      rw [if_pos h1]
      exact ⟨rfl, by omega, fun j h2 h3 => by omega⟩
    · rw [if_neg h1]
      by_cases h2 : v &&& (1#8 <<< k) = 0#8
      · left
        rw [if_pos h2]
        have := and_mask v k (by omega)
        rw [h2] at this
        refine ⟨bitpos, rfl, by omega, by omega, by omega, ?_, fun j h3 h4 => by omega⟩
        simpa using this.symm
      · rw [if_neg h2]
        have hbit : v.getLsbD k = true := by
          have := and_mask v k (by omega)
          rw [← this]; simpa using h2
        have hsh : ∀ j, bitpos + 1 ≤ j → k + 1 + (j - (bitpos + 1)) = k + (j - bitpos) := by
          intro j hj; omega
        rcases ih (k + 1) (bitpos + 1) (by omega) with ⟨r, e1, e2, e3, e4, e5, e6⟩ | ⟨e1, e2, e3⟩ | ⟨e1, e2⟩
        · left
          refine ⟨r, e1, by omega, e3, by omega, by rw [← hsh r e2]; exact e5, ?_⟩
          intro j h3 h4
          by_cases h5 : j = bitpos
          · subst h5; simpa using hbit
          · rw [← hsh j (by omega)]; exact e6 j (by omega) h4
        · right; left
          refine ⟨e1, by omega, ?_⟩
          intro j h3 h4
          by_cases h5 : j = bitpos
          · subst h5; simpa using hbit
          · rw [← hsh j (by omega)]; exact e3 j (by omega) h4
        · right; right
          refine ⟨by rw [e1]; congr 1; omega, ?_⟩
          intro j h3 h4
          by_cases h5 : j = bitpos
          · subst h5; simpa using hbit
          · rw [← hsh j (by omega)]; exact e2 j (by omega) (by omega)

theorem bitAt_cons (v : BitVec 8) (vs : List (BitVec 8)) (j : Nat) :
    bitAt (v :: vs) j = if j < 8 then v.getLsbD j else bitAt vs (j - 8) := by
  unfold bitAt
  by_cases h : j < 8
  · have : j / 8 = 0 := by omega
    have h2 : j % 8 = j := by omega
    simp [h, this, h2]
  · obtain ⟨m, rfl⟩ : ∃ m, j = m + 8 := ⟨j - 8, by omega⟩
    have : (m + 8) / 8 = m / 8 + 1 := by omega
    have h2 : (m + 8) % 8 = m % 8 := by omega
    simp [h, this, h2]

/-- Result of the scan from bit position `base`. -/
theorem scanBytes_spec (cnt : Nat) (vs : List (BitVec 8)) (base : Nat) :
    (∃ r : Nat, scanBytes cnt vs base = r ∧ base ≤ r ∧ (base + 8 * vs.length < cnt + 8 → r < cnt) ∧ bitAt vs (r - base) = false ∧
        ∀ j, base ≤ j → j < r → bitAt vs (j - base) = true) ∨
    (scanBytes cnt vs base = -1 ∧
        ∀ j, base ≤ j → j < cnt → j < base + 8 * vs.length → bitAt vs (j - base) = true) := by
  induction vs generalizing base with
  | nil => right; exact ⟨rfl, fun j h1 h2 h3 => by simp at h3; omega⟩
  | cons v vs ih =>
    have hff : ∀ i, i < 8 → (0xFF#8).getLsbD i = true := by
      intro i hi
      have : i = 0 ∨ i = 1 ∨ i = 2 ∨ i = 3 ∨ i = 4 ∨ i = 5 ∨ i = 6 ∨ i = 7 := by omega
      rcases this with h | h | h | h | h | h | h | h <;> subst h <;> rfl
    have cont : (∀ i, i < 8 → v.getLsbD i = true) →
        (∃ r : Nat, scanBytes cnt vs (base + 8) = r ∧ base ≤ r ∧ (base + 8 * (v :: vs).length < cnt + 8 → r < cnt) ∧ bitAt (v :: vs) (r - base) = false ∧
          ∀ j, base ≤ j → j < r → bitAt (v :: vs) (j - base) = true) ∨
        (scanBytes cnt vs (base + 8) = -1 ∧
          ∀ j, base ≤ j → j < cnt → j < base + 8 * (v :: vs).length → bitAt (v :: vs) (j - base) = true) := by
      intro hv
      have hb : ∀ j, base + 8 ≤ j → bitAt (v :: vs) (j - base) = bitAt vs (j - (base + 8)) := by
        intro j hj
        rw [bitAt_cons, if_neg (by omega)]
        rw [show j - base - 8 = j - (base + 8) by omega]
      have hs : ∀ j, base ≤ j → j < base + 8 → bitAt (v :: vs) (j - base) = true := by
        intro j h1 h2
        rw [bitAt_cons, if_pos (by omega)]; exact hv _ (by omega)
      rcases ih (base + 8) with ⟨r, e1, e2, e3, e4, e5⟩ | ⟨e1, e2⟩
      · left
        refine ⟨r, e1, by omega, fun h => e3 (by simp at h; omega), by rw [hb r e2]; exact e4, ?_⟩
        intro j h1 h2
        by_cases h3 : j < base + 8
        · exact hs j h1 h3
        · rw [hb j (by omega)]; exact e5 j (by omega) h2
      · right
        refine ⟨e1, ?_⟩
        intro j h1 h2 h3
        by_cases h4 : j < base + 8
        · exact hs j h1 h4
        · rw [hb j (by omega)]; exact e2 j (by omega) h2 (by simp at h3; omega)
    rw [scanBytes]
    by_cases hv : v = 0xFF#8
    · rw [if_pos hv]
      exact cont (by subst hv; exact hff)
    · rw [if_neg hv]
      rcases scanByte_spec cnt v 8 0 base rfl with ⟨r, e1, e2, e3, e4, e5, e6⟩ | ⟨e1, e2, e3⟩ | ⟨e1, e2⟩
      · left
        rw [e1]
        refine ⟨r, rfl, e2, fun _ => e3, ?_, ?_⟩
        · rw [bitAt_cons, if_pos (by omega)]; simpa using e5
        · intro j h1 h2
          rw [bitAt_cons, if_pos (by omega)]; simpa using e6 j h1 h2
      · right
        rw [e1]
        refine ⟨rfl, ?_⟩
        intro j h1 h2 h3
        rw [bitAt_cons, if_pos (by omega)]; simpa using e3 j h1 h2
      · rw [e1]
        apply cont
        intro i hi
        have := e2 (base + i) (by omega) (by omega)
        simpa using this

theorem findFirstZero_spec {b : Bitmap} (h : WF b) :
    (∃ r : Nat, b.findFirstZero = r ∧ r < b.cnt ∧ bitAt b.arr r = false ∧ ∀ j < r, bitAt b.arr j = true) ∨
    (b.findFirstZero = -1 ∧ ∀ j < b.cnt, bitAt b.arr j = true) := by
  have hlen : 8 * b.arr.length < b.cnt + 8 ∧ b.cnt ≤ 8 * b.arr.length := by
    rw [h.len, arrCnt]; omega
  rcases scanBytes_spec b.cnt b.arr 0 with ⟨r, e1, e2, e3, e4, e5⟩ | ⟨e1, e2⟩
  · left
    exact ⟨r, e1, e3 (by omega), by simpa using e4, fun j hj => by simpa using e5 j (by omega) hj⟩
  · right
    exact ⟨e1, fun j hj => by simpa using e2 j (by omega) hj (by omega)⟩

/-- C16. After any history, the search returns the least index below the count whose bit the history
    leaves clear; it returns -1 exactly when there is none. -/
theorem C16_first_zero (n : Nat) (hn : n < 256) (ops : List Op) (hops : ∀ op ∈ ops, Op.inRange op)
    (b : Bitmap) (hb : create n = some b) :
    (∀ r : Nat, (execAll b ops).findFirstZero = r ↔
        (r < n ∧ Spec.run n ops r = false ∧ ∀ j < r, Spec.run n ops j = true)) ∧
    ((execAll b ops).findFirstZero = -1 ↔ ∀ j < n, Spec.run n ops j = true) := by
  obtain ⟨hw, hc, hz⟩ := wf_create hb
  rw [Nat.mod_eq_of_lt hn] at hc
  obtain ⟨h1, h2, h3⟩ := execAll_spec hw ops hops (fun _ => false) (by simpa using hz)
  rw [hc] at h2 h3
  have h3' : ∀ j, bitAt (execAll b ops).arr j = Spec.run n ops j := h3
  have hf := findFirstZero_spec h1
  rw [h2] at hf
  simp only [h3'] at hf
  rcases hf with ⟨r, e1, e2, e3, e4⟩ | ⟨e1, e2⟩
  · rw [e1]
    constructor
    · intro r'
      constructor
      · intro h
        have : r = r' := by omega
        subst this
        exact ⟨e2, e3, e4⟩
      · rintro ⟨g1, g2, g3⟩
        have : r = r' := by
          rcases Nat.lt_trichotomy r r' with h | h | h
          · have := g3 r h; rw [e3] at this; simp at this
          · exact h
          · have := e4 r' h; rw [g2] at this; simp at this
        rw [this]
    · constructor
      · intro h; omega
      · intro h; have := h r e2; rw [e3] at this; simp at this
  · rw [e1]
    constructor
    · intro r
      constructor
      · intro h; omega
      · rintro ⟨g1, g2, _⟩
        have := e2 r g1; rw [g2] at this; simp at this
    · exact ⟨fun _ => e2, fun _ => rfl⟩

/-! ### C17 -/

theorem bitAt_append (a c : List (BitVec 8)) (j : Nat) :
    bitAt (a ++ c) j = if j < 8 * a.length then bitAt a j else bitAt c (j - 8 * a.length) := by
  induction a generalizing j with
  | nil => simp
  | cons v vs ih =>
    simp only [List.cons_append, bitAt_cons, ih, List.length_cons]
    by_cases h1 : j < 8
    · have : j < 8 * (vs.length + 1) := by omega
      simp [h1, this]
    · by_cases h2 : j - 8 < 8 * vs.length
      · have : j < 8 * (vs.length + 1) := by omega
        simp [h1, h2, this]
      · have h3 : ¬ j < 8 * (vs.length + 1) := by omega
        simp only [h1, h2, h3, if_false]
        congr 1; omega

/-- C17. Copying a bitmap with any history into one at least as large (also with any history) keeps
    every source bit, clears all further bits, and leaves the target usable as a bitmap of its own
    size under any further history; copying into a smaller one aborts. -/
theorem C17_copy (n m : Nat) (hn : n < 256) (hm : m < 256) (ops ops' more : List Op)
    (hops : ∀ op ∈ ops, Op.inRange op) (hops' : ∀ op ∈ ops', Op.inRange op)
    (hmore : ∀ op ∈ more, Op.inRange op)
    (src dst : Bitmap) (hs : create n = some src) (hd : create m = some dst) :
    (m < n → (execAll dst ops').copy (execAll src ops) = .bug) ∧
    (n ≤ m → ∃ c, (execAll dst ops').copy (execAll src ops) = .val c ∧
      (∀ i < m, c.get i = .val (if i < n then Spec.run n ops i else false)) ∧
      (∀ i < m, (execAll c more).get i =
        .val (more.foldl (step m) (fun i => if i < n then Spec.run n ops i else false) i))) := by
  obtain ⟨hw, hc, hz⟩ := wf_create hs
  rw [Nat.mod_eq_of_lt hn] at hc
  obtain ⟨h1, h2, h3⟩ := execAll_spec hw ops hops (fun _ => false) (by simpa using hz)
  obtain ⟨gw, gc, gz⟩ := wf_create hd
  rw [Nat.mod_eq_of_lt hm] at gc
  obtain ⟨g1, g2, g3⟩ := execAll_spec gw ops' hops' (fun _ => false) (by simpa using gz)
  rw [hc] at h2 h3
  rw [gc] at g2
  have h3' : ∀ j, bitAt (execAll src ops).arr j = Spec.run n ops j := h3
  generalize execAll src ops = s at *
  generalize execAll dst ops' = d at *
  constructor
  · intro h; simp [Bitmap.copy, h2, g2, h]
  · intro h
    have hle : s.arr.length ≤ d.arr.length := by
      rw [h1.len, g1.len, h2, g2, arrCnt, arrCnt]; omega
    have hcopy : d.copy s = .val { d with arr := s.arr ++ d.reset.arr.drop s.arr.length } := by
      have : ¬ d.cnt < s.cnt := by omega
      have h' : ¬ d.reset.arr.length < s.arr.length := by simp [Bitmap.reset]; omega
      simp [Bitmap.copy, this, h']
    have hbits : ∀ j, bitAt (s.arr ++ d.reset.arr.drop s.arr.length) j =
        (if j < n then Spec.run n ops j else false) := by
      intro j
      rw [bitAt_append]
      have hd0 : ∀ k, bitAt (d.reset.arr.drop s.arr.length) k = false := by
        intro k
        simp only [Bitmap.reset, List.drop_replicate]
        exact bitAt_replicate _ _
      rw [hd0]
      by_cases hj : j < n
      · have : j < 8 * s.arr.length := by rw [h1.len, h2, arrCnt]; omega
        simp [hj, this, h3']
      · have := h1.pad j (by omega)
        simp [hj, this]
    have hwc : WF { d with arr := s.arr ++ d.reset.arr.drop s.arr.length } := by
      refine ⟨g1.pos, g1.lt, ?_, ?_⟩
      · have := g1.len
        simp [Bitmap.reset]; omega
      · intro j hj
        rw [hbits j]
        have : ¬ j < n := by simp at hj; omega
        simp [this]
    refine ⟨_, hcopy, ?_, ?_⟩
    · intro i hi
      rw [get_eq hwc (by simp; omega)]
      simp only [hbits]
    · intro i hi
      obtain ⟨k1, k2, k3⟩ := execAll_spec hwc more hmore _ hbits
      rw [get_eq k1 (by rw [k2]; simp; omega), k3 i]
      simp only [g2]

/-! ### The guard of bitmap_get is off by one -/

/-- The assertion in bitmap_get lets the index equal to the bit count through; for counts that are a
    multiple of 8 this reads outside the byte array, for all others it reads a padding bit. -/
theorem C15_get_at_count (n : Nat) (hn : n < 256) (b : Bitmap) (hb : create n = some b) :
    b.get n = if n % 8 = 0 then .oob else .val false := by
  obtain ⟨hw, hc, hz⟩ := wf_create hb
  rw [Nat.mod_eq_of_lt hn] at hc
  unfold Bitmap.get
  simp only [Nat.mod_eq_of_lt hn, hc, gt_iff_lt, Nat.lt_irrefl, if_false]
  by_cases h : n % 8 = 0
  · have : b.arr.length ≤ n / 8 := by rw [hw.len, hc, arrCnt]; omega
    simp [h, List.getElem?_eq_none this]
  · have hidx : n / 8 < b.arr.length := by rw [hw.len, hc, arrCnt]; omega
    rw [List.getElem?_eq_getElem hidx]
    have := hz n
    rw [bitAt, List.getD_eq_getElem?_getD, List.getElem?_eq_getElem hidx] at this
    simp only [h, if_false]
    rw [and_mask _ _ (Nat.mod_lt _ (by decide))]
    rw [Option.getD_some] at this
    rw [this]

/-! ### Non-vacuity -/

example : (create 12).map (fun b => (execAll b [.set 0, .set 1, .set 11, .clear 0, .set 12]).get 11) = some (.val true) := by
  decide +kernel
example : (create 12).map (fun b => (execAll b [.set 0, .set 1, .set 11, .clear 0, .set 12]).findFirstZero) = some 0 := by
  decide +kernel
example : (create 9).map (fun b => (execAll b ((List.range 9).map .set)).findFirstZero) = some (-1) := by
  decide +kernel
example : ((create 9).bind fun s => (create 16).map fun d =>
    match (execAll d [.set 15]).copy (execAll s ((List.range 9).map .set)) with
    | .val c => c.findFirstZero | _ => 0) = some 9 := by
  decide +kernel
example : create 256 = none := by decide +kernel
example : (create 8).map (·.get 8) = some .oob := by decide +kernel

end Verif.Bitmap
