import Verif.Words
/-!
  Properties C63 (byte order), C73 (wrap-around comparison), C74 (error convention).
-/
namespace Verif.Words

/-! ## Specification -/
namespace Spec

/-- Byte `k` of a word (0 is the least significant). -/
def byte {w : Nat} (x : BitVec w) (k : Nat) : BitVec 8 := x.extractLsb' (8 * k) 8

/-- The bytes of a word of `n` bytes in memory, lowest address first. -/
def memBytes {w : Nat} (e : Endian) (n : Nat) (x : BitVec w) : List (BitVec 8) :=
  match e with
  | .little => (List.range n).map (byte x)
  | .big => ((List.range n).map (byte x)).reverse

/-- Big-endian resp. little-endian digits of a word. -/
def beDigits {w : Nat} (n : Nat) (x : BitVec w) : List (BitVec 8) := ((List.range n).map (byte x)).reverse
def leDigits {w : Nat} (n : Nat) (x : BitVec w) : List (BitVec 8) := (List.range n).map (byte x)

end Spec
open Spec

theorem byte_lsb {w : Nat} (x : BitVec w) (k i : Nat) (hi : i < 8) :
    (byte x k).getLsbD i = x.getLsbD (8 * k + i) := by
  simp [byte, BitVec.getLsbD_extractLsb', hi]

theorem lt8 {i : Nat} (h : i < 8) : i = 0 ∨ i = 1 ∨ i = 2 ∨ i = 3 ∨ i = 4 ∨ i = 5 ∨ i = 6 ∨ i = 7 := by omega

theorem byte_ext {w w' : Nat} {x : BitVec w} {y : BitVec w'} {k l : Nat}
    (h : ∀ i, i < 8 → x.getLsbD (8 * k + i) = y.getLsbD (8 * l + i)) : byte x k = byte y l := by
  apply BitVec.eq_of_getLsbD_eq
  intro i hi
  rw [byte_lsb _ _ _ hi, byte_lsb _ _ _ hi, h i hi]

/-- Every byte of a swapped word is the mirrored byte. -/
theorem byte_swab16 (x : BitVec 16) (k : Nat) (hk : k < 2) : byte (swab16 x) k = byte x (1 - k) := by
  apply byte_ext
  intro i hi
  have : k = 0 ∨ k = 1 := by omega
  rcases this with rfl | rfl <;>
  rcases lt8 hi with rfl | rfl | rfl | rfl | rfl | rfl | rfl | rfl <;>
    simp [swab16, BitVec.getLsbD_shiftLeft, BitVec.getLsbD_ushiftRight, BitVec.getLsbD_and, BitVec.getLsbD_or]

theorem byte_swab32 (x : BitVec 32) (k : Nat) (hk : k < 4) : byte (swab32 x) k = byte x (3 - k) := by
  apply byte_ext
  intro i hi
  have : k = 0 ∨ k = 1 ∨ k = 2 ∨ k = 3 := by omega
  rcases this with rfl | rfl | rfl | rfl <;>
  rcases lt8 hi with rfl | rfl | rfl | rfl | rfl | rfl | rfl | rfl <;>
    simp [swab32, BitVec.getLsbD_shiftLeft, BitVec.getLsbD_ushiftRight, BitVec.getLsbD_and, BitVec.getLsbD_or]

theorem byte_swab64 (x : BitVec 64) (k : Nat) (hk : k < 8) : byte (swab64 x) k = byte x (7 - k) := by
  apply byte_ext
  intro i hi
  rcases lt8 hk with rfl | rfl | rfl | rfl | rfl | rfl | rfl | rfl <;>
  rcases lt8 hi with rfl | rfl | rfl | rfl | rfl | rfl | rfl | rfl <;>
    simp [swab64, BitVec.getLsbD_shiftLeft, BitVec.getLsbD_ushiftRight, BitVec.getLsbD_and, BitVec.getLsbD_or]

/-- A word is determined by its bytes. -/
theorem eq_of_bytes {n : Nat} {x y : BitVec (8 * n)} (h : ∀ k < n, byte x k = byte y k) : x = y := by
  apply BitVec.eq_of_getLsbD_eq
  intro i hi
  have h1 : i / 8 < n := by omega
  have h2 : i % 8 < 8 := Nat.mod_lt _ (by decide)
  have := congrArg (fun b => BitVec.getLsbD b (i % 8)) (h _ h1)
  simp only [byte_lsb _ _ _ h2] at this
  have e : 8 * (i / 8) + i % 8 = i := by omega
  rwa [e] at this

theorem swab16_swab16 (x : BitVec 16) : swab16 (swab16 x) = x := by
  apply eq_of_bytes (n := 2)
  intro k hk
  have h1 := byte_swab16 (swab16 x) k hk
  have h2 := byte_swab16 x (1 - k) (by omega)
  have : 1 - (1 - k) = k := by omega
  rw [this] at h2
  exact h1.trans h2

theorem swab32_swab32 (x : BitVec 32) : swab32 (swab32 x) = x := by
  apply eq_of_bytes (n := 4)
  intro k hk
  have h1 := byte_swab32 (swab32 x) k hk
  have h2 := byte_swab32 x (3 - k) (by omega)
  have : 3 - (3 - k) = k := by omega
  rw [this] at h2
  exact h1.trans h2

theorem swab64_swab64 (x : BitVec 64) : swab64 (swab64 x) = x := by
  apply eq_of_bytes (n := 8)
  intro k hk
  have h1 := byte_swab64 (swab64 x) k hk
  have h2 := byte_swab64 x (7 - k) (by omega)
  have : 7 - (7 - k) = k := by omega
  rw [this] at h2
  exact h1.trans h2

/-- C63. Network/host conversions invert each other on both endiannesses, and the bytes of htonl(x),
    htons(x) in memory are the big-endian digits of x. -/
theorem C63_network_order (e : Endian) (x : BitVec 32) (y : BitVec 16) :
    ntohl e (htonl e x) = x ∧ htonl e (ntohl e x) = x ∧
    ntohs e (htons e y) = y ∧ htons e (ntohs e y) = y ∧
    memBytes e 4 (htonl e x) = beDigits 4 x ∧ memBytes e 2 (htons e y) = beDigits 2 y := by
  cases e
  · refine ⟨swab32_swab32 x, swab32_swab32 x, swab16_swab16 y, swab16_swab16 y, ?_, ?_⟩
    · simp [memBytes, beDigits, htonl, cpuToBe32, List.range_succ, byte_swab32]
    · simp [memBytes, beDigits, htons, cpuToBe16, List.range_succ, byte_swab16]
  · exact ⟨rfl, rfl, rfl, rfl, rfl, rfl⟩

/-- C63 (all widths). The conversions between machine order and big resp. little endian order invert
    each other at 16, 32 and 64 bits, and their memory bytes are the big- resp. little-endian digits. -/
theorem C63_all_widths (e : Endian) (x : BitVec 16) (y : BitVec 32) (z : BitVec 64) :
    (be16ToCpu e (cpuToBe16 e x) = x ∧ be32ToCpu e (cpuToBe32 e y) = y ∧ be64ToCpu e (cpuToBe64 e z) = z) ∧
    (le16ToCpu e (cpuToLe16 e x) = x ∧ le32ToCpu e (cpuToLe32 e y) = y ∧ le64ToCpu e (cpuToLe64 e z) = z) ∧
    (memBytes e 2 (cpuToBe16 e x) = beDigits 2 x ∧ memBytes e 4 (cpuToBe32 e y) = beDigits 4 y ∧
      memBytes e 8 (cpuToBe64 e z) = beDigits 8 z) ∧
    (memBytes e 2 (cpuToLe16 e x) = leDigits 2 x ∧ memBytes e 4 (cpuToLe32 e y) = leDigits 4 y ∧
      memBytes e 8 (cpuToLe64 e z) = leDigits 8 z) := by
  cases e
  · refine ⟨⟨swab16_swab16 x, swab32_swab32 y, swab64_swab64 z⟩, ⟨rfl, rfl, rfl⟩, ⟨?_, ?_, ?_⟩, ⟨rfl, rfl, rfl⟩⟩
    · simp [memBytes, beDigits, cpuToBe16, List.range_succ, byte_swab16]
    · simp [memBytes, beDigits, cpuToBe32, List.range_succ, byte_swab32]
    · simp [memBytes, beDigits, cpuToBe64, List.range_succ, byte_swab64]
  · refine ⟨⟨rfl, rfl, rfl⟩, ⟨swab16_swab16 x, swab32_swab32 y, swab64_swab64 z⟩, ⟨rfl, rfl, rfl⟩, ⟨?_, ?_, ?_⟩⟩
    · simp [memBytes, leDigits, cpuToLe16, List.range_succ, byte_swab16]
    · simp [memBytes, leDigits, cpuToLe32, List.range_succ, byte_swab32]
    · simp [memBytes, leDigits, cpuToLe64, List.range_succ, byte_swab64]

/-- C63 (memory swap). aosl__bswap_mem reverses any byte string. -/
theorem C63_bswap_mem (src : List (BitVec 8)) : bswapMem src = src.reverse := by
  apply List.ext_getElem
  · simp [bswapMem]
  · intro i h1 h2
    have h3 : i < src.length := by simpa using h2
    have h4 : src.length - i - 1 < src.length := by omega
    simp [bswapMem, h4, List.getElem_reverse]
    congr 1; omega

/-! ## C73 -/

theorem sub_toNat {w : Nat} (s : BitVec w) (i j : Nat) (hi : i < 2 ^ w) (hj : j ≤ i) :
    ((s + BitVec.ofNat w i) - (s + BitVec.ofNat w j)).toNat = i - j := by
  have h1 : (s + BitVec.ofNat w i) - (s + BitVec.ofNat w j) = BitVec.ofNat w (i - j) := by
    have : BitVec.ofNat w i = BitVec.ofNat w j + BitVec.ofNat w (i - j) := by
      rw [← BitVec.ofNat_add]; congr 1; omega
    rw [this, ← BitVec.add_assoc]
    rw [BitVec.add_comm (s + BitVec.ofNat w j), BitVec.add_sub_cancel]
  rw [h1, BitVec.toNat_ofNat]
  exact Nat.mod_eq_of_lt (by omega)

theorem neg_sub {w : Nat} (a b : BitVec w) : b - a = -(a - b) := by
  rw [BitVec.neg_sub, BitVec.add_comm, ← BitVec.sub_eq_add_neg]

theorem sub_toInt {w : Nat} (hw : 0 < w) (s : BitVec w) (i j : Nat) (hi : i < 2 ^ (w - 1)) (hj : j < 2 ^ (w - 1)) :
    ((s + BitVec.ofNat w i) - (s + BitVec.ofNat w j)).toInt = (i : Int) - j := by
  have hp : 2 ^ w = 2 * 2 ^ (w - 1) := by
    have : w = (w - 1) + 1 := by omega
    rw [this, Nat.pow_succ]; simp; omega
  by_cases h : j ≤ i
  · have h1 := sub_toNat s i j (by omega) h
    rw [BitVec.toInt_eq_toNat_cond, h1, if_pos (by omega)]
    omega
  · have h1 := sub_toNat s j i (by omega) (by omega)
    have h2 : ((s + BitVec.ofNat w i) - (s + BitVec.ofNat w j)) = -((s + BitVec.ofNat w j) - (s + BitVec.ofNat w i)) :=
      neg_sub _ _
    rw [h2, BitVec.toInt_eq_toNat_cond, BitVec.toNat_neg, h1]
    have h3 : (2 ^ w - (j - i)) % 2 ^ w = 2 ^ w - (j - i) := Nat.mod_eq_of_lt (by omega)
    rw [h3, if_neg (by omega)]
    omega

/-- C73. For counters of any width that lie in a window of half the range starting anywhere (also
    across the wrap-around), after/before and their reflexive variants order them by their distance
    from the start of the window, in_range is the interval test and dist is the distance. -/
theorem C73_half_window {w : Nat} (hw : 0 < w) (s : BitVec w) (i j k : Nat)
    (hi : i < 2 ^ (w - 1)) (hj : j < 2 ^ (w - 1)) (hk : k < 2 ^ (w - 1)) :
    let a := s + BitVec.ofNat w i
    let b := s + BitVec.ofNat w j
    let c := s + BitVec.ofNat w k
    (after a b = true ↔ i > j) ∧ (before a b = true ↔ i < j) ∧
    (afterEq a b = true ↔ i ≥ j) ∧ (beforeEq a b = true ↔ i ≤ j) ∧
    (inRange c a b = true ↔ i ≤ k ∧ k ≤ j) ∧
    (dist a b).toNat = (if i > j then i - j else j - i) := by
  have h1 := sub_toInt hw s i j hi hj
  have h2 := sub_toInt hw s j i hj hi
  have h3 := sub_toInt hw s k i hk hi
  have h4 := sub_toInt hw s j k hj hk
  have hp : 2 ^ (w - 1) ≤ 2 ^ w := Nat.pow_le_pow_right (by decide) (by omega)
  have ha : after (s + BitVec.ofNat w i) (s + BitVec.ofNat w j) = true ↔ i > j := by
    simp only [after, h1, decide_eq_true_eq]; omega
  refine ⟨ha, ?_, ?_, ?_, ?_, ?_⟩
  · simp only [before, after, h2, decide_eq_true_eq]; omega
  · simp only [afterEq, h1, decide_eq_true_eq]; omega
  · simp only [beforeEq, afterEq, h2, decide_eq_true_eq]; omega
  · simp only [inRange, beforeEq, afterEq, h3, h4, decide_eq_true_eq, Bool.and_eq_true]; omega
  · simp only [dist]
    by_cases h : i > j
    · rw [if_pos (ha.2 h), if_pos h]
      exact sub_toNat s i j (by omega) (by omega)
    · rw [if_neg (fun h' => h (ha.1 h')), if_neg h]
      exact sub_toNat s j i (by omega) (by omega)

/-- C73 (no contradiction anywhere). For any two counters of any width, never both a is after b and b
    after a; distinct counters are ordered one way or the other unless they are exactly half the range
    apart; next/prev are inverse and next is after. -/
theorem C73_asymmetric {w : Nat} (hw : 0 < w) (a b : BitVec w) :
    ¬ (after a b = true ∧ after b a = true) ∧
    (a ≠ b → (a - b).toNat ≠ 2 ^ (w - 1) → after a b = true ∨ after b a = true) ∧
    prev (next a) = a ∧ next (prev a) = a ∧ (1 < w → after (next a) a = true) := by
  have hp : 2 ^ w = 2 * 2 ^ (w - 1) := by
    have : w = (w - 1) + 1 := by omega
    rw [this, Nat.pow_succ]; simp; omega
  have hpos : 0 < 2 ^ (w - 1) := Nat.pow_pos (by decide)
  have hlt := (a - b).isLt
  have hn : (b - a).toNat = (2 ^ w - (a - b).toNat) % 2 ^ w := by rw [neg_sub a b, BitVec.toNat_neg]
  have hab : (a - b).toNat = 0 → a = b := by
    intro h
    have h0 : a - b = 0#w := BitVec.eq_of_toNat_eq (by simpa using h)
    have h1 : a - b + b = a := BitVec.sub_add_cancel a b
    rw [h0] at h1; simpa using h1.symm
  refine ⟨?_, ?_, ?_, ?_, ?_⟩
  · simp only [after, decide_eq_true_eq, BitVec.toInt_eq_toNat_cond, hn]
    by_cases h0 : (a - b).toNat = 0
    · rw [h0, Nat.sub_zero, Nat.mod_self]; split <;> omega
    · rw [Nat.mod_eq_of_lt (by omega)]
      split <;> split <;> omega
  · intro hne hhalf
    have h0 : (a - b).toNat ≠ 0 := fun h => hne (hab h)
    simp only [after, decide_eq_true_eq, BitVec.toInt_eq_toNat_cond, hn]
    rw [Nat.mod_eq_of_lt (by omega)]
    split <;> split <;> omega
  · exact BitVec.add_sub_cancel a 1
  · exact BitVec.sub_add_cancel a 1
  · intro h1
    have : (next a) - a = 1#w := by simp only [next]; rw [BitVec.add_comm, BitVec.add_sub_cancel]; rfl
    have h2 : (2 : Nat) ≤ 2 ^ (w - 1) := by
      have : 2 ^ 1 ≤ 2 ^ (w - 1) := Nat.pow_le_pow_right (by decide) (by omega)
      simpa using this
    simp only [after, this, decide_eq_true_eq, BitVec.toInt_eq_toNat_cond, BitVec.toNat_ofNat]
    rw [Nat.mod_eq_of_lt (by omega), if_pos (by omega)]
    decide

/-! ## C74 -/

theorem isErr_iff (x : BitVec 64) : isErrValue x = true ↔ -4095 ≤ x.toInt ∧ x.toInt ≤ -1 := by
  have hlt := x.isLt
  have h : (-(BitVec.ofNat 64 MAX_ERRNO)).toNat = 2 ^ 64 - 4095 := by decide +kernel
  simp only [isErrValue, decide_eq_true_eq, h, BitVec.toInt_eq_toNat_cond]
  split <;> omega

/-- C74. For every machine word: if it is -e with 1 ≤ e ≤ 4095 then the call returns -1 and sets
    aosl_errno to e; otherwise it leaves aosl_errno alone and returns the word (as an int; unchanged
    when it fits one). -/
theorem C74_return_err (x : BitVec 64) (errno : BitVec 32) :
    (∀ e : Nat, 1 ≤ e → e ≤ 4095 → x.toInt = -(e : Int) →
      (returnErr x errno).1.toInt = -1 ∧ (returnErr x errno).2.toInt = e ∧ (returnErrno x).toInt = e) ∧
    ((¬ ∃ e : Nat, 1 ≤ e ∧ e ≤ 4095 ∧ x.toInt = -(e : Int)) →
      (returnErr x errno).2 = errno ∧
      (-(2 ^ 31) ≤ x.toInt → x.toInt < 2 ^ 31 →
        (returnErr x errno).1.toInt = x.toInt ∧ (returnErrno x).toInt = x.toInt)) := by
  have hlt := x.isLt
  constructor
  · intro e h1 h2 h3
    have hE : isErrValue x = true := (isErr_iff x).2 (by omega)
    have hx : x.toNat = 2 ^ 64 - e := by
      rw [BitVec.toInt_eq_toNat_cond] at h3
      split at h3 <;> omega
    have hneg : (-x).toNat = e := by rw [BitVec.toNat_neg, hx]; omega
    have hr : ((-x).truncate 32 : BitVec 32).toInt = e := by
      rw [BitVec.truncate_eq_setWidth, BitVec.toInt_eq_toNat_cond, BitVec.toNat_setWidth, hneg]
      rw [if_pos (by omega)]; omega
    simp only [returnErr, returnErrno, hE, if_true, errnoOf, hr]
    exact ⟨by decide +kernel, trivial, trivial⟩
  · intro hno
    have hE : isErrValue x = false := by
      cases h : isErrValue x with
      | false => rfl
      | true =>
        have := (isErr_iff x).1 h
        exact absurd ⟨(-x.toInt).toNat, by omega, by omega, by omega⟩ hno
    simp only [returnErr, returnErrno, hE]
    refine ⟨by simp, ?_⟩
    intro hl hu
    have : (x.truncate 32 : BitVec 32).toInt = x.toInt := by
      rw [BitVec.truncate_eq_setWidth, BitVec.toInt_eq_toNat_cond, BitVec.toNat_setWidth]
      rw [BitVec.toInt_eq_toNat_cond] at hl hu ⊢
      split at hl <;> split <;> omega
    simp [this]

/-- C74 (pointers). A pointer result that is -e with 1 ≤ e ≤ 4095 becomes NULL with aosl_errno = e;
    NULL becomes NULL with aosl_errno = 0; any other pointer is returned with aosl_errno untouched. -/
theorem C74_return_ptr_err (x : BitVec 64) (errno : BitVec 32) :
    (∀ e : Nat, 1 ≤ e → e ≤ 4095 → x.toInt = -(e : Int) →
      (returnPtrErr x errno).1 = 0 ∧ (returnPtrErr x errno).2.toInt = e) ∧
    (x = 0 → returnPtrErr x errno = (0, 0)) ∧
    (x ≠ 0 → (¬ ∃ e : Nat, 1 ≤ e ∧ e ≤ 4095 ∧ x.toInt = -(e : Int)) → returnPtrErr x errno = (x, errno)) := by
  have hlt := x.isLt
  refine ⟨?_, ?_, ?_⟩
  · intro e h1 h2 h3
    have hE : isErrValue x = true := (isErr_iff x).2 (by omega)
    have h := ((C74_return_err x errno).1 e h1 h2 h3).2.1
    simp only [returnErr, hE, if_true] at h
    simp only [returnPtrErr, hE, if_true, h]
    exact ⟨trivial, trivial⟩
  · intro h; subst h; rfl
  · intro hx hno
    have hE : isErrValue x = false := by
      cases h : isErrValue x with
      | false => rfl
      | true =>
        have := (isErr_iff x).1 h
        exact absurd ⟨(-x.toInt).toNat, by omega, by omega, by omega⟩ hno
    simp only [returnPtrErr, hE, hx]
    rfl

/-! ## Non-vacuity -/
example : memBytes .little 4 (htonl .little 0x01020304#32) = [1#8, 2#8, 3#8, 4#8] := by decide +kernel
example : after (3#16) (65530#16) = true ∧ after (65530#16) (3#16) = false ∧ (dist (3#16) (65530#16)).toNat = 9 := by
  decide +kernel
example : (returnErr (BitVec.ofInt 64 (-1011)) 0).1.toInt = -1 ∧ (returnErr (BitVec.ofInt 64 (-1011)) 0).2.toInt = 1011 := by
  decide +kernel
example : returnErr (BitVec.ofInt 64 (-5000)) 7 = (BitVec.ofInt 32 (-5000), 7) := by decide +kernel

end Verif.Words
