import Verif.NetUtil
import Verif.WordsProps
/-! Properties of the address helpers: C67, C68, C78-C80. -/
namespace Verif.NetUtil
open Verif.Words (Endian htonl htons ntohs cpuToBe32 swab32)

/-! ## Specification -/

/-- the `n`-th bit of an address in network order (bit 0 is the first one written) -/
def bit (a : Bytes) (n : Nat) : Bool := (a (n / 8)).getMsbD (n % 8)

/-- the first `n` bits of the two addresses agree -/
def SamePrefix (a b : Bytes) (n : Nat) : Prop := ∀ i < n, bit a i = bit b i

instance (a b : Bytes) (n : Nat) : Decidable (SamePrefix a b n) := inferInstanceAs (Decidable (∀ i < n, bit a i = bit b i))

/-- the address written with the given 16-bit groups, followed by zeros -/
def addr (groups : List Nat) : Bytes := fun i =>
  let g := groups.getD (i / 2) 0
  if i % 2 = 0 then BitVec.ofNat 8 (g / 256) else BitVec.ofNat 8 g

/-! ## Lemmas -/

def beWord (a : Bytes) (k : Nat) : BitVec 32 := a (4 * k) ++ a (4 * k + 1) ++ a (4 * k + 2) ++ a (4 * k + 3)

theorem beWord_msb (a : Bytes) (k j : Nat) (hj : j < 32) : (beWord a k).getMsbD j = bit a (32 * k + j) := by
  unfold beWord bit
  have h : j < 8 ∨ (8 ≤ j ∧ j < 16) ∨ (16 ≤ j ∧ j < 24) ∨ (24 ≤ j) := by omega
  rw [BitVec.getMsbD_append, BitVec.getMsbD_append, BitVec.getMsbD_append]
  rcases h with h | ⟨h1, h2⟩ | ⟨h1, h2⟩ | h
  · have e1 : (32 * k + j) / 8 = 4 * k := by omega
    have e2 : (32 * k + j) % 8 = j := by omega
    rw [e1, e2]
    have : ¬ (24 ≤ j) := by omega
    have : ¬ (16 ≤ j) := by omega
    have : ¬ (8 ≤ j) := by omega
    simp [*]
  · have e1 : (32 * k + j) / 8 = 4 * k + 1 := by omega
    have e2 : (32 * k + j) % 8 = j - 8 := by omega
    rw [e1, e2]
    have : ¬ (24 ≤ j) := by omega
    have : ¬ (16 ≤ j) := by omega
    simp [*]
  · have e1 : (32 * k + j) / 8 = 4 * k + 2 := by omega
    have e2 : (32 * k + j) % 8 = j - 16 := by omega
    rw [e1, e2]
    have : ¬ (24 ≤ j) := by omega
    simp [*]
  · have e1 : (32 * k + j) / 8 = 4 * k + 3 := by omega
    have e2 : (32 * k + j) % 8 = j - 24 := by omega
    rw [e1, e2]
    simp [*]

open Verif.Words.Spec (byte)
open Verif.Words (byte_swab32 eq_of_bytes swab32_swab32)

theorem byte_and {w : Nat} (x y : BitVec w) (k : Nat) : byte (x &&& y) k = byte x k &&& byte y k := by
  simp only [byte]; ext i hi; simp
theorem byte_xor {w : Nat} (x y : BitVec w) (k : Nat) : byte (x ^^^ y) k = byte x k ^^^ byte y k := by
  simp only [byte]; ext i hi; simp
theorem byte_or {w : Nat} (x y : BitVec w) (k : Nat) : byte (x ||| y) k = byte x k ||| byte y k := by
  simp only [byte]; ext i hi; simp

theorem swab32_and (x y : BitVec 32) : swab32 (x &&& y) = swab32 x &&& swab32 y := by
  apply eq_of_bytes (n := 4)
  intro k hk
  rw [byte_swab32 _ _ hk, byte_and, byte_and, byte_swab32 _ _ hk, byte_swab32 _ _ hk]
theorem swab32_xor (x y : BitVec 32) : swab32 (x ^^^ y) = swab32 x ^^^ swab32 y := by
  apply eq_of_bytes (n := 4)
  intro k hk
  rw [byte_swab32 _ _ hk, byte_xor, byte_xor, byte_swab32 _ _ hk, byte_swab32 _ _ hk]
theorem swab32_or (x y : BitVec 32) : swab32 (x ||| y) = swab32 x ||| swab32 y := by
  apply eq_of_bytes (n := 4)
  intro k hk
  rw [byte_swab32 _ _ hk, byte_or, byte_or, byte_swab32 _ _ hk, byte_swab32 _ _ hk]

theorem htonl_and (e : Endian) (x y : BitVec 32) : htonl e (x &&& y) = htonl e x &&& htonl e y := by
  cases e
  · exact swab32_and x y
  · rfl
theorem htonl_xor (e : Endian) (x y : BitVec 32) : htonl e (x ^^^ y) = htonl e x ^^^ htonl e y := by
  cases e
  · exact swab32_xor x y
  · rfl
theorem htonl_or (e : Endian) (x y : BitVec 32) : htonl e (x ||| y) = htonl e x ||| htonl e y := by
  cases e
  · exact swab32_or x y
  · rfl
theorem htonl_inj (e : Endian) (x y : BitVec 32) : htonl e x = htonl e y ↔ x = y := by
  constructor
  · intro h
    cases e
    · have := congrArg swab32 h
      simpa [htonl, cpuToBe32, swab32_swab32] using this
    · exact h
  · intro h; rw [h]
theorem htonl_zero (e : Endian) : htonl e 0#32 = 0#32 := by cases e <;> decide
theorem cpuToBe32_eq (e : Endian) (x : BitVec 32) : cpuToBe32 e x = htonl e x := rfl

theorem word_eq (e : Endian) (a : Bytes) (k : Nat) : word e a k = htonl e (beWord a k) := by
  cases e
  · show _ = swab32 _
    apply eq_of_bytes (n := 4)
    intro j hj
    rw [byte_swab32 _ _ hj]
    have : j = 0 ∨ j = 1 ∨ j = 2 ∨ j = 3 := by omega
    rcases this with h | h | h | h <;> subst h <;> simp only [byte, word, beWord] <;> ext i hi <;>
      simp <;> grind
  · rfl

theorem memEq_iff (a b : Bytes) (n : Nat) : memEq a b n = true ↔ ∀ i < n, a i = b i := by
  simp [memEq]

theorem byte_bits (a b : Bytes) (k : Nat) : a k = b k ↔ ∀ i < 8, bit a (8 * k + i) = bit b (8 * k + i) := by
  constructor
  · intro h i hi
    have e : (8 * k + i) / 8 = k := by omega
    simp only [bit, e, h]
  · intro h
    apply BitVec.eq_of_getMsbD_eq
    intro i hi
    have := h i hi
    have e : (8 * k + i) / 8 = k := by omega
    have e2 : (8 * k + i) % 8 = i := by omega
    simpa only [bit, e, e2] using this

theorem memEq_bits (a b : Bytes) (n : Nat) : memEq a b n = true ↔ SamePrefix a b (8 * n) := by
  rw [memEq_iff]
  constructor
  · intro h i hi
    have := (byte_bits a b (i / 8)).1 (h (i / 8) (by omega)) (i % 8) (by omega)
    have e : 8 * (i / 8) + i % 8 = i := by omega
    rwa [e] at this
  · intro h i hi
    exact (byte_bits a b i).2 fun j hj => h _ (by omega)

theorem mask_msb (p i : Nat) (hp : p ≤ 32) (hi : i < 32) :
    (0xffffffff#32 <<< (32 - p)).getMsbD i = decide (i < p) := by
  have h1 : (0xffffffff#32) = BitVec.allOnes 32 := by decide
  rw [h1, BitVec.getMsbD_shiftLeft]
  by_cases h : i < p
  · have : i + (32 - p) < 32 := by omega
    have h2 : 32 - 1 - (i + (32 - p)) < 32 := by omega
    simp only [BitVec.getMsbD, this, decide_true, Bool.true_and, BitVec.getLsbD_allOnes, h2, h]
  · have : ¬ (i + (32 - p) < 32) := by omega
    simp [h, BitVec.getMsbD, this]

theorem mask_test (X C : BitVec 32) (p : Nat) (hp : p ≤ 32) (hC : ∀ i < 32, p ≤ i → C.getMsbD i = false) :
    (X &&& (0xffffffff#32 <<< (32 - p))) = C ↔ ∀ i < p, X.getMsbD i = C.getMsbD i := by
  constructor
  · intro h i hi
    rw [← h, BitVec.getMsbD_and, mask_msb p i hp (by omega)]
    simp [hi]
  · intro h
    apply BitVec.eq_of_getMsbD_eq
    intro i hi
    rw [BitVec.getMsbD_and, mask_msb p i hp hi]
    by_cases hip : i < p
    · simp [hip, h i hip]
    · simp [hip, hC i hi (by omega)]

/-- the test `(s6_addr32_v [k] & htonl (mask)) == htonl (C)` -/
theorem word_test (e : Endian) (a b : Bytes) (k p : Nat) (M C : BitVec 32) (hp : p ≤ 32)
    (hM : M = 0xffffffff#32 <<< (32 - p))
    (hC : ∀ i < 32, p ≤ i → C.getMsbD i = false) (hb : ∀ i < p, bit b (32 * k + i) = C.getMsbD i) :
    (word e a k &&& htonl e M) = htonl e C ↔ ∀ i < p, bit a (32 * k + i) = bit b (32 * k + i) := by
  rw [word_eq, ← htonl_and, htonl_inj, hM, mask_test _ _ p hp hC]
  constructor
  · intro h i hi
    rw [hb i hi, ← h i hi, beWord_msb _ _ _ (by omega)]
  · intro h i hi
    rw [← hb i hi, ← h i hi, beWord_msb _ _ _ (by omega)]

theorem word_test0 (e : Endian) (a b : Bytes) (p : Nat) (M C : BitVec 32) (hp : p ≤ 32)
    (hM : M = 0xffffffff#32 <<< (32 - p))
    (hC : ∀ i < 32, p ≤ i → C.getMsbD i = false) (hb : ∀ i < p, bit b i = C.getMsbD i) :
    (word e a 0 &&& htonl e M) = htonl e C ↔ SamePrefix a b p := by
  have := word_test e a b 0 p M C hp hM hC (by simpa using hb)
  simpa [SamePrefix] using this

/-- equality with a constant word -/
theorem word_const (e : Endian) (a : Bytes) (k : Nat) (C : BitVec 32) :
    word e a k = htonl e C ↔ ∀ i < 32, bit a (32 * k + i) = C.getMsbD i := by
  rw [word_eq, htonl_inj]
  constructor
  · intro h i hi
    rw [← h, beWord_msb _ _ _ hi]
  · intro h
    apply BitVec.eq_of_getMsbD_eq
    intro i hi
    rw [beWord_msb _ _ _ hi, h i hi]

theorem word_word (e : Endian) (a b : Bytes) (k : Nat) :
    word e a k = word e b k ↔ ∀ i < 32, bit a (32 * k + i) = bit b (32 * k + i) := by
  rw [word_eq e b, word_const]
  constructor
  · intro h i hi; rw [h i hi, beWord_msb _ _ _ hi]
  · intro h i hi; rw [h i hi, beWord_msb _ _ _ hi]

theorem xor_zero_iff (x y : BitVec 32) : x ^^^ y = 0#32 ↔ x = y := by
  constructor
  · intro h
    apply BitVec.eq_of_getLsbD_eq
    intro i hi
    have := congrArg (·.getLsbD i) h
    simpa using this
  · intro h; subst h; simp

theorem or_zero_iff (x y : BitVec 32) : x ||| y = 0#32 ↔ x = 0#32 ∧ y = 0#32 := by
  constructor
  · intro h
    constructor <;> (apply BitVec.eq_of_getLsbD_eq; intro i hi; have := congrArg (·.getLsbD i) h; simp at this ⊢; simp [this])
  · rintro ⟨h1, h2⟩; simp [h1, h2]

theorem same_words (a b : Bytes) (n : Nat) :
    SamePrefix a b (32 * n) ↔ ∀ k < n, ∀ i < 32, bit a (32 * k + i) = bit b (32 * k + i) := by
  constructor
  · intro h k hk i hi; exact h _ (by omega)
  · intro h i hi
    have := h (i / 32) (by omega) (i % 32) (by omega)
    have e : 32 * (i / 32) + i % 32 = i := by omega
    rwa [e] at this

theorem lt3 {P : Nat → Prop} : (∀ k < 3, P k) ↔ P 0 ∧ P 1 ∧ P 2 := by
  constructor
  · intro h; exact ⟨h 0 (by omega), h 1 (by omega), h 2 (by omega)⟩
  · rintro ⟨h0, h1, h2⟩ k hk
    have : k = 0 ∨ k = 1 ∨ k = 2 := by omega
    rcases this with h | h | h <;> subst h <;> assumption
theorem lt4 {P : Nat → Prop} : (∀ k < 4, P k) ↔ P 0 ∧ P 1 ∧ P 2 ∧ P 3 := by
  constructor
  · intro h; exact ⟨h 0 (by omega), h 1 (by omega), h 2 (by omega), h 3 (by omega)⟩
  · rintro ⟨h0, h1, h2, h3⟩ k hk
    have : k = 0 ∨ k = 1 ∨ k = 2 ∨ k = 3 := by omega
    rcases this with h | h | h | h <;> subst h <;> assumption

/-! ## C68 -/

/-- C68. `ipv6_prefix_equal (a, b, n)` holds exactly when the first `n` bits agree. -/
theorem C68_prefix_equal (e : Endian) (a b : Bytes) (n : Nat) :
    prefixEqual e a b n = true ↔ SamePrefix a b n := by
  have hs : n >>> 5 = n / 32 := by simp [Nat.shiftRight_eq_div_pow]
  have hm : n &&& 0x1f = n % 32 := Nat.and_two_pow_sub_one_eq_mod n 5
  have hl : (n / 32) <<< 2 = 4 * (n / 32) := by simp [Nat.shiftLeft_eq]; omega
  unfold prefixEqual
  simp only [hs, hm, hl]
  have hfirst : ¬ (n / 32 ≠ 0 ∧ ¬ memEq a b (4 * (n / 32)) = true) ↔ SamePrefix a b (32 * (n / 32)) := by
    by_cases h0 : n / 32 = 0
    · simp [h0, SamePrefix]
    · rw [memEq_bits]
      have : 8 * (4 * (n / 32)) = 32 * (n / 32) := by omega
      rw [this]; simp [h0]
  have hsnd : ¬ (n % 32 ≠ 0 ∧ ((word e a (n / 32) ^^^ word e b (n / 32)) &&& htonl e (0xffffffff#32 <<< (32 - n % 32))) ≠ 0#32) ↔
      ∀ i < n % 32, bit a (32 * (n / 32) + i) = bit b (32 * (n / 32) + i) := by
    by_cases h0 : n % 32 = 0
    · simp [h0]
    · rw [word_eq, word_eq, ← htonl_xor, ← htonl_and]
      have hz : ∀ X : BitVec 32, htonl e X = 0#32 ↔ X = 0#32 := by
        intro X; rw [← htonl_inj e X 0#32, htonl_zero]
      simp only [h0, ne_eq, not_false_iff, true_and, Decidable.not_not, hz]
      rw [mask_test _ _ _ (by omega) (by simp)]
      constructor
      · intro h i hi
        have := h i hi
        rw [BitVec.getMsbD_xor, beWord_msb _ _ _ (by omega), beWord_msb _ _ _ (by omega)] at this
        simpa using this
      · intro h i hi
        rw [BitVec.getMsbD_xor, beWord_msb _ _ _ (by omega), beWord_msb _ _ _ (by omega), h i hi]
        simp
  have hsplit : SamePrefix a b n ↔ SamePrefix a b (32 * (n / 32)) ∧
      ∀ i < n % 32, bit a (32 * (n / 32) + i) = bit b (32 * (n / 32) + i) := by
    constructor
    · intro h; exact ⟨fun i hi => h i (by omega), fun i hi => h _ (by omega)⟩
    · rintro ⟨h1, h2⟩ i hi
      by_cases h : i < 32 * (n / 32)
      · exact h1 i h
      · have := h2 (i - 32 * (n / 32)) (by omega)
        have e : 32 * (n / 32) + (i - 32 * (n / 32)) = i := by omega
        rwa [e] at this
  rw [hsplit, ← hfirst, ← hsnd]
  split
  · rename_i h; simp [h]
  · rename_i h
    split
    · rename_i h'; simp [h']
    · rename_i h'; simp only [h, h']; simp

/-- concrete case: fe80::1 and febf::2 agree on 10 bits, not on 11 -/
example : prefixEqual .little (addr [0xfe80,0,0,0,0,0,0,1]) (addr [0xfebf,0,0,0,0,0,0,2]) 10 = true ∧
    prefixEqual .big (addr [0xfe80,0,0,0,0,0,0,1]) (addr [0xfebf,0,0,0,0,0,0,2]) 11 = false := by decide +kernel

/-! ## Predicates on addresses -/

theorem isAny_iff (e : Endian) (a : Bytes) : isAny e a = true ↔ SamePrefix a (addr []) 128 := by
  have hz : ∀ k, word e a k = 0#32 ↔ ∀ i < 32, bit a (32 * k + i) = bit (addr []) (32 * k + i) := by
    intro k
    rw [← htonl_zero e, word_const]
    have : ∀ n, bit (addr []) n = false := by intro n; simp [bit, addr, BitVec.getMsbD]
    simp [this]
  simp only [isAny, decide_eq_true_eq, or_zero_iff, hz]
  rw [same_words a _ 4, lt4]
  simp only [and_assoc]

theorem addr_bits (gs : List Nat) (C0 C1 C2 C3 : BitVec 32)
    (h : ∀ i < 32, bit (addr gs) (32 * 0 + i) = C0.getMsbD i ∧ bit (addr gs) (32 * 1 + i) = C1.getMsbD i ∧
      bit (addr gs) (32 * 2 + i) = C2.getMsbD i ∧ bit (addr gs) (32 * 3 + i) = C3.getMsbD i) (e : Endian) (a : Bytes) :
    (SamePrefix a (addr gs) 128 ↔ word e a 0 = htonl e C0 ∧ word e a 1 = htonl e C1 ∧ word e a 2 = htonl e C2 ∧ word e a 3 = htonl e C3) ∧
    (SamePrefix a (addr gs) 96 ↔ word e a 0 = htonl e C0 ∧ word e a 1 = htonl e C1 ∧ word e a 2 = htonl e C2) := by
  have hw : ∀ k (C : BitVec 32), (∀ i < 32, bit (addr gs) (32 * k + i) = C.getMsbD i) →
      ((∀ i < 32, bit a (32 * k + i) = bit (addr gs) (32 * k + i)) ↔ word e a k = htonl e C) := by
    intro k C hC
    rw [word_const]
    constructor
    · intro h i hi; rw [h i hi, hC i hi]
    · intro h i hi; rw [h i hi, hC i hi]
  constructor
  · rw [same_words a _ 4, lt4, hw 0 C0 fun i hi => (h i hi).1, hw 1 C1 fun i hi => (h i hi).2.1,
      hw 2 C2 fun i hi => (h i hi).2.2.1, hw 3 C3 fun i hi => (h i hi).2.2.2]
  · rw [same_words a _ 3, lt3, hw 0 C0 fun i hi => (h i hi).1, hw 1 C1 fun i hi => (h i hi).2.1,
      hw 2 C2 fun i hi => (h i hi).2.2.1]

theorem zero_iff (e : Endian) (x : BitVec 32) : x = 0#32 ↔ x = htonl e 0#32 := by rw [htonl_zero]

theorem isLoopback_iff (e : Endian) (a : Bytes) : isLoopback e a = true ↔ SamePrefix a (addr [0,0,0,0,0,0,0,1]) 128 := by
  rw [(addr_bits [0,0,0,0,0,0,0,1] 0 0 0 1 (by decide +kernel) e a).1]
  simp only [isLoopback, decide_eq_true_eq, or_zero_iff, xor_zero_iff, cpuToBe32_eq]
  simp only [zero_iff e, and_assoc]
  rfl

theorem isV4Mapped_iff (e : Endian) (a : Bytes) : isV4Mapped e a = true ↔ SamePrefix a (addr [0,0,0,0,0,0xffff]) 96 := by
  rw [(addr_bits [0,0,0,0,0,0xffff] 0 0 0xffff 0 (by decide +kernel) e a).2]
  simp only [isV4Mapped, decide_eq_true_eq, or_zero_iff, xor_zero_iff, cpuToBe32_eq]
  simp only [zero_iff e, and_assoc]
  rfl

theorem isNat64_iff (e : Endian) (a : Bytes) : isNat64 e a = true ↔ SamePrefix a (addr [0x64,0xff9b]) 96 := by
  rw [(addr_bits [0x64,0xff9b] 0x64ff9b 0 0 0 (by decide +kernel) e a).2]
  simp only [isNat64, decide_eq_true_eq, or_zero_iff, xor_zero_iff, cpuToBe32_eq]
  simp only [zero_iff e, and_assoc]
  rfl

/-! ## C67 -/

theorem SamePrefix.bytes {a b : Bytes} {n : Nat} (h : SamePrefix a b (8 * n)) : ∀ i < n, a i = b i :=
  (memEq_iff a b n).1 ((memEq_bits a b n).2 h)

theorem samePrefix_of_bytes {a b : Bytes} {n : Nat} (h : ∀ i < n, a i = b i) : SamePrefix a b (8 * n) :=
  (memEq_bits a b n).1 ((memEq_iff a b n).2 h)

theorem nat64Prefix_eq : ∀ i < 16, nat64Prefix i = addr [0x64, 0xff9b] i := by decide +kernel

/-- the prefix used for mapping: the one of the queue, or 64:ff9b::/96 -/
def inForce (q : Prefix) : Bytes := q.getD (addr [0x64, 0xff9b])

theorem from_prefix (q : Prefix) (v4 : Sk) : SamePrefix (fromIpv4 q v4).hi (inForce q) 96 := by
  apply samePrefix_of_bytes (n := 12)
  intro i hi
  cases q with
  | none => simp [fromIpv4, inForce, hi, nat64Prefix_eq i (by omega)]
  | some p => simp [fromIpv4, inForce, hi]

def v4Of (dst v6 : Sk) : Sk :=
  { family := AF_INET, port := v6.port, lo := fun i => v6.hi (12 + i),
    hi := fun i => if i < 8 then 0#8 else dst.hi i, scope := dst.scope }

theorem to_ok (e : Endian) (q : Prefix) (dst v6 : Sk) (h : skV4Compatible e q v6 = true) :
    toIpv4 e q dst v6 = some (v4Of dst v6) := by
  unfold toIpv4 v4Of; rw [if_neg (by simp [h])]

/-- C67. For every queue prefix, mapping an IPv4 socket address to IPv6 puts the IPv4 address after the
    96 bits of the prefix in force and keeps the port, with flow label and scope 0; mapping back gives the address and port again; and
    mapping an IPv6 address carrying the prefix in force to IPv4 and back gives it again. An IPv6 address
    is refused exactly when its first 96 bits are neither the queue's prefix nor ::ffff/96 nor 64:ff9b::/96. -/
theorem C67_mapping (e : Endian) (q : Prefix) (v4 v6 dst : Sk) (h6 : v6.family = AF_INET6) :
    (let m := fromIpv4 q v4
     m.family = AF_INET6 ∧ m.port = v4.port ∧ SamePrefix m.hi (inForce q) 96 ∧ (∀ i < 4, m.hi (12 + i) = v4.lo i) ∧
     (∀ i < 4, m.lo i = 0#8 ∧ m.scope i = 0#8)) ∧
    (∃ r, toIpv4 e q dst (fromIpv4 q v4) = some r ∧ r.family = AF_INET ∧ r.port = v4.port ∧ ∀ i < 4, r.lo i = v4.lo i) ∧
    (SamePrefix v6.hi (inForce q) 96 →
      ∃ r, toIpv4 e q dst v6 = some r ∧ (fromIpv4 q r).family = AF_INET6 ∧ (fromIpv4 q r).port = v6.port ∧
        ∀ i < 16, (fromIpv4 q r).hi i = v6.hi i) ∧
    (toIpv4 e q dst v6 = none ↔
      ¬ (∃ p, q = some p ∧ SamePrefix v6.hi p 96) ∧ ¬ SamePrefix v6.hi (addr [0,0,0,0,0,0xffff]) 96 ∧
      ¬ SamePrefix v6.hi (addr [0x64,0xff9b]) 96) := by
  have hcompat : ∀ s : Sk, s.family = AF_INET6 → (skV4Compatible e q s = true ↔
      (∃ p, q = some p ∧ SamePrefix s.hi p 96) ∨ SamePrefix s.hi (addr [0,0,0,0,0,0xffff]) 96 ∨ SamePrefix s.hi (addr [0x64,0xff9b]) 96) := by
    intro s hs
    simp only [skV4Compatible, hs, AF_INET, AF_INET6]
    cases q with
    | none => simp [v4Compatible, isV4Mapped_iff, isNat64_iff]
    | some p => simp [v4Compatible, isV4Mapped_iff, isNat64_iff, C68_prefix_equal, or_assoc]
  have hin : ∀ s : Sk, s.family = AF_INET6 → SamePrefix s.hi (inForce q) 96 → skV4Compatible e q s = true := by
    intro s hs hp
    rw [hcompat s hs]
    cases q with
    | none => exact .inr (.inr hp)
    | some p => exact .inl ⟨p, rfl, hp⟩
  refine ⟨⟨rfl, rfl, from_prefix q v4, ?_, fun _ _ => ⟨rfl, rfl⟩⟩, ?_, ?_, ?_⟩
  · intro i _
    show (if 12 + i < 12 then _ else v4.lo (12 + i - 12)) = _
    rw [if_neg (by omega)]; congr 1; omega
  · have := hin (fromIpv4 q v4) rfl (from_prefix q v4)
    refine ⟨_, to_ok _ _ _ _ this, rfl, rfl, ?_⟩
    intro i _
    show (if 12 + i < 12 then _ else v4.lo (12 + i - 12)) = _
    rw [if_neg (by omega)]; congr 1; omega
  · intro hp
    refine ⟨_, to_ok _ _ _ _ (hin v6 h6 hp), rfl, rfl, ?_⟩
    intro i hi
    by_cases h : i < 12
    · have h1 := (from_prefix q (v4Of dst v6)).bytes (n := 12) i h
      rw [h1, ← hp.bytes (n := 12) i h]
    · show (if i < 12 then _ else v6.hi (12 + (i - 12))) = _
      rw [if_neg h]; congr 1; omega
  · unfold toIpv4
    have := hcompat v6 h6
    by_cases hc : skV4Compatible e q v6 = true
    · simp only [hc]
      have h' := this.1 hc
      simp only [Bool.true_eq_false, if_false, false_iff, reduceCtorEq]
      intro hn
      grind
    · have hc' : skV4Compatible e q v6 = false := by simpa using hc
      simp only [hc', if_true, true_iff]
      grind

/-- concrete case: 1.2.3.4 port 80 on a queue with prefix 2001:db8::/96 -/
example :
    let v4 : Sk := ⟨AF_INET, 80, fun i => BitVec.ofNat 8 (i + 1), fun _ => 0, fun _ => 0⟩
    let q : Prefix := some (addr [0x2001, 0xdb8])
    (List.range 16).map (fromIpv4 q v4).hi = [0x20,1,0xd,0xb8,0,0,0,0,0,0,0,0,1,2,3,4] ∧
    (toIpv4 .little q v4 { v4 with family := AF_INET6, hi := addr [0x2001,0xdb8,0,1] }).isNone = true := by decide +kernel

/-- What C67 does not cover: an address that claims to be IPv4 already is not copied but replaced by
    bytes 20..23 of its memory, which lie beyond an aosl_sockaddr_in_t. -/
theorem C67_ipv4_source_reads_beyond (e : Endian) (q : Prefix) (dst s : Sk) (hs : s.family = AF_INET) :
    ∃ r, toIpv4 e q dst s = some r ∧ r.family = AF_INET ∧ ∀ i, r.lo i = s.hi (12 + i) := by
  exact ⟨_, to_ok _ _ _ _ (by simp [skV4Compatible, hs]), rfl, fun _ => rfl⟩

/-! ## C81: setting the prefix -/

/-- the history of aosl_mpq_set_ipv6_prefix_on_q calls on one queue: argument and whether memory was available -/
def setAll (e : Endian) (calls : List (Option Bytes × Bool)) : Prefix :=
  calls.foldl (fun q c => updatePrefix e c.2 q c.1) none

/-- ::ffff/96 or 64:ff9b::/96 -/
def Special (a : Bytes) : Prop := SamePrefix a (addr [0,0,0,0,0,0xffff]) 96 ∨ SamePrefix a (addr [0x64,0xff9b]) 96

theorem special_iff (e : Endian) (a : Bytes) : (isV4Mapped e a || isNat64 e a) = true ↔ Special a := by
  simp [isV4Mapped_iff, isNat64_iff, Special]

/-- C81 (what holds). After the last call with an ordinary prefix `a` (memory being available), and after
    any number of calls with special ones, IPv4 addresses are mapped with the first 96 bits of `a`;
    after a call with NULL (and special ones only) they are mapped with 64:ff9b::/96. -/
theorem C81_prefix_in_force_partial (e : Endian) (before after : List (Option Bytes × Bool)) (v4 : Sk)
    (hafter : ∀ c ∈ after, ∃ a, c.1 = some a ∧ Special a) :
    (∀ a, ¬ Special a → SamePrefix (fromIpv4 (setAll e (before ++ (some a, true) :: after)) v4).hi a 96) ∧
    SamePrefix (fromIpv4 (setAll e (before ++ (none, true) :: after)) v4).hi (addr [0x64,0xff9b]) 96 ∧
    SamePrefix (fromIpv4 (setAll e after) v4).hi (addr [0x64,0xff9b]) 96 := by
  have hkeep : ∀ q, after.foldl (fun q c => updatePrefix e c.2 q c.1) q = q := by
    intro q
    induction after generalizing q with
    | nil => rfl
    | cons c t ih =>
      obtain ⟨a, ha, hs⟩ := hafter c (by simp)
      have : updatePrefix e c.2 q c.1 = q := by
        unfold updatePrefix
        rw [ha]
        simp [(special_iff e a).2 hs]
      rw [List.foldl_cons, this]
      exact ih (fun c hc => hafter c (by simp [hc])) q
  refine ⟨?_, ?_, ?_⟩
  · intro a ha
    have : setAll e (before ++ (some a, true) :: after) = some a := by
      simp only [setAll, List.foldl_append, List.foldl_cons, hkeep]
      have hs : ¬ (isV4Mapped e a || isNat64 e a) = true := fun h => ha ((special_iff e a).1 h)
      unfold updatePrefix
      dsimp only
      rw [if_neg hs]
      split <;> simp
    rw [this]
    exact from_prefix (some a) v4
  · have : setAll e (before ++ (none, true) :: after) = none := by
      simp only [setAll, List.foldl_append, List.foldl_cons, hkeep]
      rfl
    rw [this]; exact from_prefix none v4
  · have : setAll e after = none := hkeep none
    rw [this]; exact from_prefix none v4

/-- C81 (violation). Setting 64:ff9b::/96 explicitly after an ordinary prefix succeeds without effect:
    addresses are still mapped with the old prefix; and a v4-mapped prefix is never used. -/
theorem C81_special_prefix_ignored (e : Endian) (v4 : Sk) :
    (∃ old new : Bytes, Special new ∧ ¬ SamePrefix old new 96 ∧
      SamePrefix (fromIpv4 (setAll e [(some old, true), (some new, true)]) v4).hi old 96) ∧
    ¬ SamePrefix (fromIpv4 (setAll e [(some (addr [0,0,0,0,0,0xffff]), true)]) v4).hi (addr [0,0,0,0,0,0xffff]) 96 := by
  have hn : ¬ Special (addr [0x2001, 0xdb8]) := by
    rintro (h | h)
    · exact absurd (h.bytes (n := 12) 0 (by omega)) (by decide +kernel)
    · exact absurd (h.bytes (n := 12) 0 (by omega)) (by decide +kernel)
  refine ⟨⟨addr [0x2001, 0xdb8], addr [0x64,0xff9b], .inr (fun _ _ => rfl), ?_, ?_⟩, ?_⟩
  · intro h; exact absurd (h.bytes (n := 12) 0 (by omega)) (by decide +kernel)
  · have := (C81_prefix_in_force_partial e [] [(some (addr [0x64,0xff9b]), true)] v4 (by simp [Special, SamePrefix])).1 _ hn
    simpa using this
  · intro h
    have h2 := (C81_prefix_in_force_partial e [] [(some (addr [0,0,0,0,0,0xffff]), true)] v4 (by
      intro c hc; simp at hc; subst hc; exact ⟨_, rfl, .inl fun _ _ => rfl⟩)).2.2
    have h3 := h.bytes (n := 12) 1 (by omega)
    have h4 := h2.bytes (n := 12) 1 (by omega)
    rw [h3] at h4
    exact absurd h4 (by decide +kernel)

/-! ## C78: choice of the socket of a dual-stack socket -/

/-- C78. A destination is reached through the socket of its own family, unchanged, if that socket is
    open; otherwise through the other one with the destination mapped (C67); when neither is possible the
    call fails with EINVAL. -/
theorem C78_dispatch (e : Endian) (q : Prefix) (junk : Sk) (sk : IpSk) (dest : Sk) :
    (dest.family = AF_INET → sk.v4 ≠ -1 → dispatch e q junk sk dest = some (sk.v4, dest)) ∧
    (dest.family = AF_INET6 → sk.v6 ≠ -1 → dispatch e q junk sk dest = some (sk.v6, dest)) ∧
    (dest.family = AF_INET → sk.v4 = -1 → sk.v6 ≠ -1 → ∃ d, dispatch e q junk sk dest = some (sk.v6, d) ∧
      d.family = AF_INET6 ∧ d.port = dest.port ∧ SamePrefix d.hi (inForce q) 96 ∧ ∀ i < 4, d.hi (12 + i) = dest.lo i) ∧
    (dest.family = AF_INET6 → sk.v6 = -1 → sk.v4 ≠ -1 → ∀ d, dispatch e q junk sk dest = some d →
      d.1 = sk.v4 ∧ d.2.family = AF_INET ∧ d.2.port = dest.port ∧ (∀ i < 4, d.2.lo i = dest.hi (12 + i)) ∧
      ((∃ p, q = some p ∧ SamePrefix dest.hi p 96) ∨ Special dest.hi)) ∧
    (dispatch e q junk sk dest = none ↔
      (dest.family ≠ AF_INET ∧ dest.family ≠ AF_INET6) ∨ (sk.v4 = -1 ∧ sk.v6 = -1) ∨
      (dest.family = AF_INET6 ∧ sk.v6 = -1 ∧ ¬ (∃ p, q = some p ∧ SamePrefix dest.hi p 96) ∧ ¬ Special dest.hi)) := by
  have hto : dest.family = AF_INET6 → (toIpv4 e q junk dest = none ↔
      ¬ (∃ p, q = some p ∧ SamePrefix dest.hi p 96) ∧ ¬ Special dest.hi) := by
    intro h
    rw [(C67_mapping e q dest dest junk h).2.2.2, Special]; grind
  refine ⟨?_, ?_, ?_, ?_, ?_⟩
  · intro h1 h2; simp [dispatch, h1, h2]
  · intro h1 h2; simp [dispatch, h1, h2, AF_INET, AF_INET6]
  · intro h1 h2 h3
    refine ⟨fromIpv4 q dest, by simp [dispatch, h1, h2, h3], ?_⟩
    obtain ⟨m1, m2, m3, m4, -⟩ := (C67_mapping e q dest { dest with family := AF_INET6 } junk rfl).1
    exact ⟨m1, m2, m3, m4⟩
  · intro h1 h2 h3 d hd
    have hd' := hd
    simp only [dispatch, h1, h2, AF_INET, AF_INET6] at hd'
    have hne : ¬ ((10 : Nat) = 2) := by decide
    simp only [hne, if_false, if_true, ne_eq, not_true_eq_false] at hd'
    cases ht : toIpv4 e q junk dest with
    | none => rw [ht] at hd'; simp at hd'
    | some r =>
      rw [ht] at hd'
      have h3' : ¬ sk.v4 = -1 := h3
      simp only [h3', not_false_iff, if_true, Option.some.injEq] at hd'
      subst hd'
      have hc : toIpv4 e q junk dest ≠ none := by rw [ht]; simp
      have hc := mt (hto h1).2 hc
      unfold toIpv4 at ht
      split at ht
      · simp at ht
      · simp only [Option.some.injEq] at ht
        subst ht
        refine ⟨rfl, rfl, rfl, fun _ _ => rfl, ?_⟩
        grind
  · by_cases h4 : dest.family = AF_INET
    · have h46 : dest.family ≠ AF_INET6 := by rw [h4]; decide
      simp only [dispatch, h4, if_true]
      have : ¬ (AF_INET = AF_INET6) := by decide
      by_cases a : sk.v4 = -1 <;> by_cases b : sk.v6 = -1 <;> simp [a, b, this]
    · by_cases h6 : dest.family = AF_INET6
      · have hn : ¬ (AF_INET6 = AF_INET) := by decide
        simp only [dispatch, h6, hn, if_false, if_true]
        by_cases a : sk.v6 = -1
        · by_cases b : sk.v4 = -1
          · simp [a, b]
          · simp only [a, b, ne_eq, not_true_eq_false, not_false_iff, if_true, if_false]
            have := hto h6
            cases ht : toIpv4 e q junk dest with
            | none => simp; simpa using this.1 ht
            | some r => rw [ht] at this; simp at this ⊢; grind
        · simp [a]
      · simp [dispatch, h4, h6]

example :
    let v6 : Sk := ⟨AF_INET6, 80, fun _ => 0, addr [0x64,0xff9b,0,0,0,0,0x0102,0x0304], fun _ => 0⟩
    (dispatch .little none v6 ⟨5, -1⟩ v6).map (fun d => (d.1, d.2.family, (List.range 4).map d.2.lo)) = some (5, AF_INET, [1,2,3,4]) ∧
    (dispatch .little none v6 ⟨5, -1⟩ { v6 with hi := addr [0x2001] }).isNone = true := by decide +kernel

/-! ## C79: classification of IPv6 addresses -/

/-- The classification by prefixes (RFC 4291, 4193, 6724), most specific range first. -/
def classOf (a : Bytes) : BitVec 32 :=
  let global : BitVec 32 := 0x0e0000
  let site : BitVec 32 := 0x050000
  let link : BitVec 32 := 0x020000
  if SamePrefix a (addr []) 128 then 0                                   -- ::
  else if SamePrefix a (addr [0,0,0,0,0,0,0,1]) 128 then 0x11 ||| link   -- ::1, unicast loopback
  else if SamePrefix a (addr []) 96 then 0x81 ||| global                 -- ::/96, unicast v4-compatible
  else if SamePrefix a (addr [0,0,0,0,0,0xffff]) 96 then 0x1000 ||| global -- ::ffff:0:0/96, v4-mapped
  else if SamePrefix a (addr [0xfe80]) 10 then 0x21 ||| link             -- fe80::/10, unicast link local
  else if SamePrefix a (addr [0xfec0]) 10 then 0x41 ||| site             -- fec0::/10, unicast site local
  else if SamePrefix a (addr [0xff00]) 8 then                            -- ff00::/8, multicast
    let scope := (a 1).toNat % 16
    0x02 ||| BitVec.ofNat 32 (scope * 65536) |||
      (if scope = 1 then 0x10 else if scope = 2 then 0x20 else if scope = 5 then 0x40 else 0)
  else 0x01 ||| global

theorem SamePrefix.mono {a b : Bytes} {n m : Nat} (h : SamePrefix a b n) (hm : m ≤ n) : SamePrefix a b m :=
  fun i hi => h i (by omega)
theorem SamePrefix.disj {a b c : Bytes} {n m : Nat} (i : Nat) (h : SamePrefix a b n) (h' : SamePrefix a c m)
    (hi : i < n) (hi' : i < m) (hne : bit b i ≠ bit c i) : False := hne ((h i hi).symm.trans (h' i hi'))
theorem SamePrefix.trans {a b c : Bytes} {n : Nat} (h : SamePrefix a b n) (h' : SamePrefix b c n) : SamePrefix a c n :=
  fun i hi => (h i hi).trans (h' i hi)

theorem scope_nibble (b : BitVec 8) : ((b &&& 0x0f#8).setWidth 32 : BitVec 32) = BitVec.ofNat 32 (b.toNat % 16) := by
  apply BitVec.eq_of_toNat_eq
  have h : b.toNat &&& 15 = b.toNat % 16 := Nat.and_two_pow_sub_one_eq_mod b.toNat 4
  have hl := b.isLt
  simp only [BitVec.toNat_setWidth, BitVec.toNat_and, BitVec.toNat_ofNat]
  simp
  rw [h]

theorem scope_val : ∀ n < 16, T_MULTICAST ||| scope2type (BitVec.ofNat 32 n) =
    0x02 ||| BitVec.ofNat 32 (n * 65536) ||| (if n = 1 then 0x10 else if n = 2 then 0x20 else if n = 5 then 0x40 else 0) := by
  decide +kernel

/-- C79. The type computed for an IPv6 address is the one of the most specific range it belongs to. -/
theorem C79_classification (e : Endian) (a : Bytes) : addrType e a = classOf a := by
  have t := fun p M C b h1 h2 h3 h4 => word_test0 e a b p M C h1 h2 h3 h4
  have z3 := t 3 0xE0000000#32 0#32 (addr []) (by omega) (by decide) (by decide +kernel) (by decide +kernel)
  have o3 := t 3 0xE0000000#32 0xE0000000#32 (addr [0xe000]) (by omega) (by decide) (by decide +kernel) (by decide +kernel)
  have mc := t 8 0xFF000000#32 0xFF000000#32 (addr [0xff00]) (by omega) (by decide) (by decide +kernel) (by decide +kernel)
  have ll := t 10 0xFFC00000#32 0xFE800000#32 (addr [0xfe80]) (by omega) (by decide) (by decide +kernel) (by decide +kernel)
  have sl := t 10 0xFFC00000#32 0xFEC00000#32 (addr [0xfec0]) (by omega) (by decide) (by decide +kernel) (by decide +kernel)
  have ul := t 7 0xFE000000#32 0xFC000000#32 (addr [0xfc00]) (by omega) (by decide) (by decide +kernel) (by decide +kernel)
  have any := (addr_bits [] 0 0 0 0 (by decide +kernel) e a)
  have lo := (addr_bits [0,0,0,0,0,0,0,1] 0 0 0 1 (by decide +kernel) e a).1
  have mp := (addr_bits [0,0,0,0,0,0xffff] 0 0 0xffff 0 (by decide +kernel) e a).2
  have hz : htonl e (0#32) = 0#32 := htonl_zero e
  have hff : ¬ htonl e 0xffff#32 = 0#32 := by rw [← hz, htonl_inj]; decide
  have h1 : ¬ htonl e 1#32 = 0#32 := by rw [← hz, htonl_inj]; decide
  have a96 : word e a 0 = 0#32 → SamePrefix a (addr []) 3 := by
    intro h
    rw [← z3, h]; simp [hz]
  have d1 : SamePrefix a (addr []) 3 → SamePrefix a (addr [0xe000]) 3 → False := fun h h' =>
    h.disj 0 h' (by omega) (by omega) (by decide +kernel)
  have d2 : SamePrefix a (addr [0xff00]) 8 → SamePrefix a (addr [0xe000]) 3 := fun h => (h.mono (by omega)).trans (by
    unfold SamePrefix; decide +kernel)
  have d3 : SamePrefix a (addr [0xfe80]) 10 → SamePrefix a (addr [0xe000]) 3 := fun h => (h.mono (by omega)).trans (by
    unfold SamePrefix; decide +kernel)
  have d4 : SamePrefix a (addr [0xfec0]) 10 → SamePrefix a (addr [0xe000]) 3 := fun h => (h.mono (by omega)).trans (by
    unfold SamePrefix; decide +kernel)
  have d5 : SamePrefix a (addr [0xfc00]) 7 → SamePrefix a (addr [0xe000]) 3 := fun h => (h.mono (by omega)).trans (by
    unfold SamePrefix; decide +kernel)
  have d6 : SamePrefix a (addr [0xff00]) 8 → SamePrefix a (addr [0xfe80]) 10 → False := fun h h' =>
    h.disj 7 h' (by omega) (by omega) (by decide +kernel)
  have d7 : SamePrefix a (addr [0xff00]) 8 → SamePrefix a (addr [0xfec0]) 10 → False := fun h h' =>
    h.disj 7 h' (by omega) (by omega) (by decide +kernel)
  have hm := scope_val ((a 1).toNat % 16) (by omega)
  rw [← scope_nibble] at hm
  have g : T_UNICAST ||| scopeType 0x0e#32 = 0x01 ||| 0x0e0000 := by decide
  have g2 : T_LINKLOCAL ||| T_UNICAST ||| scopeType 2#32 = 0x21 ||| 0x020000 := by decide
  have g3 : T_SITELOCAL ||| T_UNICAST ||| scopeType 5#32 = 0x41 ||| 0x050000 := by decide
  have g4 : T_LOOPBACK ||| T_UNICAST ||| scopeType 2#32 = 0x11 ||| 0x020000 := by decide
  have g5 : T_COMPATv4 ||| T_UNICAST ||| scopeType 0x0e#32 = 0x81 ||| 0x0e0000 := by decide
  have g6 : T_MAPPED ||| scopeType 0x0e#32 = 0x1000 ||| 0x0e0000 := by decide
  unfold addrType classOf
  dsimp only
  simp only [or_zero_iff]
  rw [hm, g, g2, g3, g4, g5, g6]
  simp only [z3, o3, mc, ll, sl, ul, ne_eq, any.1, any.2, lo, mp]
  have e0 : (0 : BitVec 32) = 0#32 := rfl
  have e1 : (1 : BitVec 32) = 1#32 := rfl
  have e2 : (0xffff : BitVec 32) = 0xffff#32 := rfl
  simp only [e0, e1, e2, hz]
  clear z3 o3 mc ll sl ul any lo mp hm g g2 g3 g4 g5 g6
  by_cases hO : SamePrefix a (addr [0xe000]) 3
  · have : ¬ SamePrefix a (addr []) 3 := fun h => d1 h hO
    have w0 : ¬ word e a 0 = 0#32 := fun h => this (a96 h)
    by_cases hMC : SamePrefix a (addr [0xff00]) 8
    · have : ¬ SamePrefix a (addr [0xfe80]) 10 := d6 hMC
      have : ¬ SamePrefix a (addr [0xfec0]) 10 := d7 hMC
      simp [*]
    · by_cases hLL : SamePrefix a (addr [0xfe80]) 10
      · simp [*]
      · by_cases hSL : SamePrefix a (addr [0xfec0]) 10 <;> simp [*]
  · have h2 : ¬ SamePrefix a (addr [0xff00]) 8 := fun h => hO (d2 h)
    have h3 : ¬ SamePrefix a (addr [0xfe80]) 10 := fun h => hO (d3 h)
    have h4 : ¬ SamePrefix a (addr [0xfec0]) 10 := fun h => hO (d4 h)
    have h5 : ¬ SamePrefix a (addr [0xfc00]) 7 := fun h => hO (d5 h)
    by_cases hZ : SamePrefix a (addr []) 3
    · by_cases w0 : word e a 0 = 0#32
      · by_cases w1 : word e a 1 = 0#32
        · by_cases w2 : word e a 2 = 0#32
          · have hff' : ¬ (0#32 = htonl e 0xffff#32) := fun h => hff h.symm
            have h1' : ¬ (0#32 = htonl e 1#32) := fun h => h1 h.symm
            by_cases w3 : word e a 3 = 0#32
            · simp [*]
            · by_cases w3' : word e a 3 = htonl e 1#32 <;> simp [*]
          · simp [*]
        · simp [*]
      · simp [*]
    · have w0 : ¬ word e a 0 = 0#32 := fun h => hZ (a96 h)
      simp [*]

example : addrType .little (addr [0xff02,0,0,0,0,0,0,1]) = 0x20022#32 ∧ addrType .big (addr [0xfe80,0,0,0,0,0,0,1]) = 0x20021#32 ∧
    addrType .little (addr [0,0,0,0,0,0xffff,0x0102,0x0304]) = 0xe1000#32 := by decide +kernel

/-! ## C80: taking and replacing a prefix, masked comparison, equality -/

theorem topMask_msb (b i : Nat) (hb : b < 8) (hi : i < 8) : (topMask b).getMsbD i = decide (i < b) := by
  have : ∀ b < 8, ∀ i < 8, (topMask b).getMsbD i = decide (i < b) := by decide +kernel
  exact this b hb i hi

theorem shr3 (n : Nat) : n >>> 3 = n / 8 := by simp [Nat.shiftRight_eq_div_pow]
theorem and7 (n : Nat) : n &&& 7 = n % 8 := Nat.and_two_pow_sub_one_eq_mod n 3

/-- C80. `ipv6_addr_prefix` keeps the first `n` bits and clears all others; `ipv6_addr_prefix_copy`
    replaces the first `n` bits and keeps all others. -/
theorem C80_prefix_bits (a p : Bytes) (n i : Nat) :
    bit (addrPrefix a n) i = (if i < n then bit a i else false) ∧
    bit (prefixCopy a p n) i = (if i < n then bit p i else bit a i) := by
  have h8 : n % 8 < 8 := by omega
  have hi8 : i % 8 < 8 := by omega
  have hm := topMask_msb (n % 8) (i % 8) h8 hi8
  unfold bit addrPrefix prefixCopy
  simp only [shr3, and7]
  by_cases h1 : i / 8 < n / 8
  · have : i < n := by omega
    simp [h1, this]
  · by_cases h2 : n % 8 ≠ 0 ∧ i / 8 = n / 8
    · have e : (i % 8 < n % 8) ↔ i < n := by omega
      simp only [h2, Nat.lt_irrefl, if_false, if_true, not_false_iff, and_self, ne_eq]
      rw [BitVec.getMsbD_and, BitVec.getMsbD_or, BitVec.getMsbD_and, BitVec.getMsbD_and, BitVec.getMsbD_not, hm]
      by_cases h : i < n
      · simp [h, e.2 h]
      · have := mt e.1 h
        simp [h, this, hi8]
    · have h : ¬ i < n := by omega
      rw [if_neg h1, if_neg h1, if_neg h2, if_neg h2, if_neg h, if_neg h]
      simp [BitVec.getMsbD]

example : (List.range 16).map (addrPrefix (addr [0x2001,0xdb8,0xffff,0xffff]) 45) = [0x20,1,0xd,0xb8,0xff,0xf8,0,0,0,0,0,0,0,0,0,0] ∧
    (List.range 16).map (prefixCopy (addr [0,0,0x0007,0xabcd]) (addr [0x2001,0xdb8,0xffff,0xffff]) 45) = [0x20,1,0xd,0xb8,0xff,0xff,0xab,0xcd,0,0,0,0,0,0,0,0] := by
  decide +kernel

/-- C80. Masked comparison reports a difference exactly when some bit selected by the mask differs;
    two addresses are equal exactly when all 128 bits agree. -/
theorem C80_masked_cmp (e : Endian) (a m b : Bytes) :
    (maskedCmp e a m b = false ↔ ∀ i < 128, bit m i = true → bit a i = bit b i) ∧
    (addrEqual e a b = true ↔ SamePrefix a b 128) := by
  have hw : ∀ k, ((word e a k ^^^ word e b k) &&& word e m k) = 0#32 ↔
      ∀ i < 32, bit m (32 * k + i) = true → bit a (32 * k + i) = bit b (32 * k + i) := by
    intro k
    rw [word_eq, word_eq, word_eq, ← htonl_xor, ← htonl_and, ← htonl_zero e, htonl_inj]
    constructor
    · intro h i hi hm
      have := congrArg (·.getMsbD i) h
      simp only [BitVec.getMsbD_and, BitVec.getMsbD_xor, beWord_msb _ _ _ hi, hm] at this
      simpa [BitVec.getMsbD] using this
    · intro h
      apply BitVec.eq_of_getMsbD_eq
      intro i hi
      rw [BitVec.getMsbD_and, BitVec.getMsbD_xor, beWord_msb _ _ _ hi, beWord_msb _ _ _ hi, beWord_msb _ _ _ hi]
      have := h i hi
      cases hm : bit m (32 * k + i)
      · simp [BitVec.getMsbD]
      · simp [this hm, BitVec.getMsbD]
  constructor
  · simp only [maskedCmp, decide_eq_false_iff_not, ne_eq, Decidable.not_not, or_zero_iff, hw]
    constructor
    · rintro ⟨⟨⟨h0, h1⟩, h2⟩, h3⟩ i hi hm
      have := (lt4 (P := fun k => ∀ i < 32, bit m (32 * k + i) = true → bit a (32 * k + i) = bit b (32 * k + i))).2
        ⟨h0, h1, h2, h3⟩ (i / 32) (by omega) (i % 32) (by omega)
      have e : 32 * (i / 32) + i % 32 = i := by omega
      rw [e] at this
      exact this hm
    · intro h
      exact ⟨⟨⟨fun i _ => h _ (by omega), fun i _ => h _ (by omega)⟩, fun i _ => h _ (by omega)⟩, fun i _ => h _ (by omega)⟩
  · simp only [addrEqual, decide_eq_true_eq, or_zero_iff, xor_zero_iff, word_word]
    rw [same_words a b 4, lt4]
    simp only [and_assoc]

/-! ## C82: socket address helpers -/

/-- C82. Two socket addresses of the known families have equal IPs exactly when the families and the
    bytes of the addresses agree, whatever their ports; the relation is symmetric and transitive. -/
theorem C82_ip_equal (a b c : Sk) :
    (a.family = AF_INET → b.family = AF_INET → (ipEqual a b = true ↔ ∀ i < 4, a.lo i = b.lo i)) ∧
    (a.family = AF_INET6 → b.family = AF_INET6 → (ipEqual a b = true ↔ SamePrefix a.hi b.hi 128)) ∧
    (a.family ≠ b.family → ipEqual a b = false) ∧
    (ipEqual a b = ipEqual b a) ∧ (ipEqual a b = true → ipEqual b c = true → ipEqual a c = true) := by
  have hs : ∀ (x y : Bytes) n, memEq x y n = memEq y x n := by
    intro x y n
    rw [Bool.eq_iff_iff, memEq_iff, memEq_iff]
    exact ⟨fun h i hi => (h i hi).symm, fun h i hi => (h i hi).symm⟩
  have ht : ∀ (x y z : Bytes) n, memEq x y n = true → memEq y z n = true → memEq x z n = true := by
    intro x y z n h1 h2
    rw [memEq_iff] at *
    exact fun i hi => (h1 i hi).trans (h2 i hi)
  refine ⟨?_, ?_, ?_, ?_, ?_⟩
  · intro h1 h2; simp [ipEqual, h1, h2, AF_INET, AF_UNSPEC, memEq_iff]
  · intro h1 h2; simp [ipEqual, h1, h2, AF_INET, AF_INET6, AF_UNSPEC, memEq_bits]
  · intro h; simp [ipEqual, h]
  · unfold ipEqual
    by_cases h : a.family = b.family
    · simp [h, hs a.lo b.lo, hs a.hi b.hi]
    · simp [h, Ne.symm h]
  · unfold ipEqual
    by_cases h : a.family = b.family
    · by_cases h' : b.family = c.family
      · simp only [h, h', ne_eq, not_true_eq_false, if_false]
        split
        · simp
        · split
          · exact ht _ _ _ _
          · split
            · exact ht _ _ _ _
            · simp
      · simp [h']
    · simp [h]

/-- C82. The port given to aosl_ip_sk_addr_init_with_port is read back by aosl_ip_sk_addr_port, the
    address is the wildcard, and other families are refused. -/
theorem C82_port_round_trip (e : Endian) (old : Sk) (af : Nat) (port : BitVec 16) :
    (∀ s, initWithPort e old af port = some s → s.family = af ∧ skPort e s = port ∧
      (af = AF_INET → ∀ i, s.lo i = 0) ∧ (af = AF_INET6 → ∀ i, s.hi i = 0)) ∧
    (initWithPort e old af port = none ↔ af ≠ AF_INET ∧ af ≠ AF_INET6) := by
  have hp : ntohs e (htons e port) = port := (Verif.Words.C63_network_order e 0 port).2.2.1
  have hne : ¬ (AF_INET6 = AF_INET) := by decide
  constructor
  · intro s hs
    unfold initWithPort at hs
    split at hs
    · rename_i h
      simp only [Option.some.injEq] at hs
      subst hs h
      exact ⟨rfl, by simp [skPort, hp], fun _ _ => rfl, fun h => absurd h.symm hne⟩
    · split at hs
      · rename_i h
        simp only [Option.some.injEq] at hs
        subst hs h
        exact ⟨rfl, by simp [skPort, hp], fun h => absurd h hne, fun _ _ => rfl⟩
      · simp at hs
  · unfold initWithPort
    split
    · simp [*]
    · split <;> simp [*]

/-- C82. DSCP values outside 0..63 and unknown families are refused, all others are passed on unchanged. -/
theorem C82_dscp (af dscp : Int) :
    (∀ v, dscpArg af dscp = some v → (v.toNat : Int) = dscp ∧ dscp ≤ 63) ∧
    (dscpArg af dscp = none ↔ ¬ ((af = 2 ∨ af = 10) ∧ 0 ≤ dscp ∧ dscp ≤ 63)) := by
  unfold dscpArg
  constructor
  · intro v hv
    split at hv
    · simp at hv
    · split at hv
      · simp at hv
      · rename_i h
        simp only [Option.some.injEq] at hv
        subst hv
        refine ⟨?_, by omega⟩
        simp [BitVec.toNat_ofInt]
        omega
  · split
    · simp; omega
    · split
      · simp; omega
      · simp; omega

/-- C83. aosl_ip_sk_create opens a socket for exactly the families having a valid default route and
    reports how many succeeded (-1 for none); the fds not opened are invalid. aosl_ip_sk_close closes each
    open socket once and invalidates both; closing again closes nothing. -/
theorem C83_dual_socket_life (v4 v6 : Bool) (s4 s6 : Int) (sk : IpSk) :
    (let r := ipSkCreate v4 v6 s4 s6
     (r.2.v4 = if v4 then s4 else -1) ∧ (r.2.v6 = if v6 then s6 else -1) ∧
     (let n : Int := (if r.2.v4 ≠ -1 then 1 else 0) + (if r.2.v6 ≠ -1 then 1 else 0)
      r.1 = if n = 0 then -1 else n)) ∧
    (let r := ipSkClose sk
     r.2.v4 = -1 ∧ r.2.v6 = -1 ∧ r.1 = [sk.v4, sk.v6].filter (· ≠ -1) ∧ (ipSkClose r.2).1 = []) := by
  constructor
  · unfold ipSkCreate
    cases v4 <;> cases v6 <;> by_cases h4 : s4 = -1 <;> by_cases h6 : s6 = -1 <;> simp [h4, h6]
  · unfold ipSkClose
    by_cases h4 : sk.v4 = -1 <;> by_cases h6 : sk.v6 = -1 <;> simp [h4, h6]

/-- C83. aosl_ip_sk_bind binds each open socket whose address is given, to that address, and returns the
    number of successful binds, -1 if there is none. -/
theorem C83_bind (bind : Int → Sk → Bool) (sk : IpSk) (v4 v6 : Sk) :
    let want := (if sk.v4 ≠ -1 ∧ v4.family ≠ AF_UNSPEC then [(sk.v4, v4)] else []) ++
                (if sk.v6 ≠ -1 ∧ v6.family ≠ AF_UNSPEC then [(sk.v6, v6)] else [])
    let n : Int := (want.filter fun w => bind w.1 w.2).length
    (ipSkBind bind sk v4 v6).2 = want ∧ (ipSkBind bind sk v4 v6).1 = (if n = 0 then -1 else n) := by
  unfold ipSkBind
  by_cases h4 : sk.v4 ≠ -1 ∧ v4.family ≠ AF_UNSPEC <;> by_cases h6 : sk.v6 ≠ -1 ∧ v6.family ≠ AF_UNSPEC <;>
    cases b4 : bind sk.v4 v4 <;> cases b6 : bind sk.v6 v6 <;> simp [h4, h6, b4, b6]

example : ipSkClose ⟨3, 4⟩ = ([3, 4], ⟨-1, -1⟩) ∧ (ipSkCreate true true 3 (-1)).1 = 1 := by decide +kernel

end Verif.NetUtil
