import Verif.EncInt
import Verif.WordsProps

/-!
  C217: aosl_encode_intN is documented to produce network byte order (aosl_marshalling.h:247-269) and
  aosl_decode_intN to read it.  The specification is the list of bytes the encoded word occupies in
  memory, and the word another machine builds from those bytes.
-/
namespace Verif.EncInt
open Verif.Words Verif.Words.Spec

/-- The word a machine of byte order `e` reads from bytes at increasing addresses. -/
def SameBytes {w : Nat} (n : Nat) (e : Endian) (x : BitVec w) (e' : Endian) (y : BitVec w) : Prop :=
  memBytes e n x = memBytes e' n y

/-- C217 (round trip). On a machine of either byte order, what was encoded is decoded to the value
    given, at every width, and the other way round. -/
theorem C217_roundtrip (e : Endian) (a : BitVec 16) (b : BitVec 32) (c : BitVec 64) :
    decode16 e (encode16 e a) = a ∧ decode32 e (encode32 e b) = b ∧ decode64 e (encode64 e c) = c ∧
    encode16 e (decode16 e a) = a ∧ encode32 e (decode32 e b) = b ∧ encode64 e (decode64 e c) = c := by
  cases e <;> exact ⟨rfl, rfl, rfl, rfl, rfl, rfl⟩

/-- C217 (big-endian machines). The bytes of an encoded value are its big-endian digits, and a value whose
    bytes are the big-endian digits of `x` decodes to `x`.  (What is missing: little-endian machines, where
    the claim is false, `C217_violated`.) -/
theorem C217_network_partial (a : BitVec 16) (b : BitVec 32) (c : BitVec 64) :
    memBytes .big 2 (encode16 .big a) = beDigits 2 a ∧ memBytes .big 4 (encode32 .big b) = beDigits 4 b ∧
    memBytes .big 8 (encode64 .big c) = beDigits 8 c ∧
    (∀ v : BitVec 16, memBytes .big 2 v = beDigits 2 a → decode16 .big v = a) ∧
    (∀ v : BitVec 32, memBytes .big 4 v = beDigits 4 b → decode32 .big v = b) ∧
    (∀ v : BitVec 64, memBytes .big 8 v = beDigits 8 c → decode64 .big v = c) := by
  have ext : ∀ (n : Nat) (x y : BitVec (8 * n)), memBytes .big n x = beDigits n y → x = y := by
    intro n x y h
    apply eq_of_bytes
    intro k hk
    simp only [memBytes, beDigits, List.reverse_inj, List.map_inj_left, List.mem_range] at h
    exact h k hk
  exact ⟨rfl, rfl, rfl, fun v h => ext 2 v a h, fun v h => ext 4 v b h, fun v h => ext 8 v c h⟩

/-- C217 (little-endian machines, exactly). The bytes of an encoded value are its little-endian digits:
    they are in network order exactly when they read the same both ways. -/
theorem C217_little (a : BitVec 16) (b : BitVec 32) (c : BitVec 64) :
    memBytes .little 2 (encode16 .little a) = leDigits 2 a ∧
    memBytes .little 4 (encode32 .little b) = leDigits 4 b ∧
    memBytes .little 8 (encode64 .little c) = leDigits 8 c ∧
    (memBytes .little 2 (encode16 .little a) = beDigits 2 a ↔ byte a 0 = byte a 1) ∧
    (memBytes .little 4 (encode32 .little b) = beDigits 4 b ↔ byte b 0 = byte b 3 ∧ byte b 1 = byte b 2) ∧
    (memBytes .little 8 (encode64 .little c) = beDigits 8 c ↔
      byte c 0 = byte c 7 ∧ byte c 1 = byte c 6 ∧ byte c 2 = byte c 5 ∧ byte c 3 = byte c 4) := by
  refine ⟨rfl, rfl, rfl, ?_, ?_, ?_⟩ <;>
    simp only [encode16, encode32, encode64, cpuToLe16, cpuToLe32, cpuToLe64, memBytes, beDigits,
      List.range_succ, List.range_zero, List.nil_append, List.cons_append, List.map_cons, List.map_nil,
      List.reverse_cons, List.reverse_nil, List.cons.injEq, and_true] <;> constructor <;> grind

/-- C217 (violated). On a little-endian machine the value 1 is not encoded in network byte order at any
    width, and bytes in network order are not decoded to the value they denote. -/
theorem C217_violated :
    memBytes .little 2 (encode16 .little 1) ≠ beDigits 2 (1 : BitVec 16) ∧
    memBytes .little 4 (encode32 .little 1) ≠ beDigits 4 (1 : BitVec 32) ∧
    memBytes .little 8 (encode64 .little 1) ≠ beDigits 8 (1 : BitVec 64) ∧
    (∃ v : BitVec 16, memBytes .little 2 v = beDigits 2 (1 : BitVec 16) ∧ decode16 .little v = 256) ∧
    (∃ v : BitVec 32, memBytes .little 4 v = beDigits 4 (1 : BitVec 32) ∧ decode32 .little v = 16777216) ∧
    (∃ v : BitVec 64, memBytes .little 8 v = beDigits 8 (1 : BitVec 64) ∧ decode64 .little v = 72057594037927936) := by
  refine ⟨by decide +kernel, by decide +kernel, by decide +kernel, ⟨256, by decide +kernel, by decide +kernel⟩,
    ⟨16777216, by decide +kernel, by decide +kernel⟩, ⟨72057594037927936, by decide +kernel, by decide +kernel⟩⟩

/-- C217 (between machines). A value encoded on one machine and decoded on another of the other byte
    order comes out with its bytes reversed, so it arrives only if it reads the same both ways. -/
theorem C217_between (e e' : Endian) (a y : BitVec 16) (b z : BitVec 32) (c t : BitVec 64) (h : e ≠ e')
    (hy : SameBytes 2 e (encode16 e a) e' y) (hz : SameBytes 4 e (encode32 e b) e' z)
    (ht : SameBytes 8 e (encode64 e c) e' t) :
    decode16 e' y = swab16 a ∧ decode32 e' z = swab32 b ∧ decode64 e' t = swab64 c := by
  have hy' : ∀ k < 2, byte y k = byte a (1 - k) := by
    cases e <;> cases e' <;> first | exact absurd rfl h |
      (simp only [SameBytes, encode16, cpuToLe16, cpuToBe16, memBytes, List.range_succ, List.range_zero,
        List.nil_append, List.cons_append, List.map_cons, List.map_nil, List.reverse_cons, List.reverse_nil,
        List.cons.injEq, and_true] at hy
       intro k hk
       have : k = 0 ∨ k = 1 := by omega
       rcases this with rfl | rfl <;> simp_all)
  have hz' : ∀ k < 4, byte z k = byte b (3 - k) := by
    cases e <;> cases e' <;> first | exact absurd rfl h |
      (simp only [SameBytes, encode32, cpuToLe32, cpuToBe32, memBytes, List.range_succ, List.range_zero,
        List.nil_append, List.cons_append, List.map_cons, List.map_nil, List.reverse_cons, List.reverse_nil,
        List.cons.injEq, and_true] at hz
       intro k hk
       have : k = 0 ∨ k = 1 ∨ k = 2 ∨ k = 3 := by omega
       rcases this with rfl | rfl | rfl | rfl <;> simp_all)
  have ht' : ∀ k < 8, byte t k = byte c (7 - k) := by
    cases e <;> cases e' <;> first | exact absurd rfl h |
      (simp only [SameBytes, encode64, cpuToLe64, cpuToBe64, memBytes, List.range_succ, List.range_zero,
        List.nil_append, List.cons_append, List.map_cons, List.map_nil, List.reverse_cons, List.reverse_nil,
        List.cons.injEq, and_true] at ht
       intro k hk
       rcases lt8 hk with rfl | rfl | rfl | rfl | rfl | rfl | rfl | rfl <;> simp_all)
  have e1 : y = swab16 a := eq_of_bytes (n := 2) fun k hk => by rw [hy' k hk, byte_swab16 a k hk]
  have e2 : z = swab32 b := eq_of_bytes (n := 4) fun k hk => by rw [hz' k hk, byte_swab32 b k hk]
  have e3 : t = swab64 c := eq_of_bytes (n := 8) fun k hk => by rw [ht' k hk, byte_swab64 c k hk]
  subst e1 e2 e3
  cases e' <;> exact ⟨rfl, rfl, rfl⟩

/-- The hypotheses of `C217_between` are met: 0x1234 encoded on a little-endian machine reads 0x3412 on a
    big-endian one. -/
example : SameBytes 2 .little (encode16 .little 0x1234) .big (0x3412 : BitVec 16) ∧
    SameBytes 4 .little (encode32 .little 0x12345678) .big (0x78563412 : BitVec 32) ∧
    SameBytes 8 .little (encode64 .little 1) .big (0x0100000000000000 : BitVec 64) ∧
    decode16 .big 0x3412 = 0x3412 := by
  unfold SameBytes
  exact ⟨by decide +kernel, by decide +kernel, by decide +kernel, rfl⟩

end Verif.EncInt
