import Verif.PortUtil

/-!
# Device ids and random bytes on the ports: C199, C200, C201
-/

namespace Verif.PortUtilProps
open Verif.PortUtil

/-! ## Specification -/

/-- what lies at index `i` after the writes `w`, in order: the last value written there -/
def final : List (Nat × Nat) → Nat → Option Nat
  | [], _ => none
  | (j, c) :: w, i => match final w i with
    | some x => some x
    | none => if j = i then some c else none

/-- no write beyond the `n` bytes of the buffer -/
def InBounds (w : List (Nat × Nat)) (n : Nat) : Prop := ∀ x ∈ w, x.1 < n

/-- a lower-case hex digit, as a character -/
def IsHex (c : Nat) : Prop := (48 ≤ c ∧ c ≤ 57) ∨ (97 ≤ c ∧ c ≤ 102)

/-- a device id: 32 hex digits -/
def IsId (t : List Nat) : Prop := t.length = 32 ∧ ∀ c ∈ t, IsHex c

/-- the buffer of `n` bytes holds `t`, cut to fit, and a terminating zero; nothing else was touched -/
def HoldsId (w : List (Nat × Nat)) (n : Nat) (t : List Nat) : Prop :=
  InBounds w n ∧ ∀ i, final w i = (t.take (n - 1) ++ [0])[i]?

/-- The property's demand on one call: it failed and wrote nothing, or it answered 0 and the buffer holds an id. -/
def GoodCall (n : Nat) : Out → Prop
  | .running => False
  | .ret r w => (r = -1 ∧ w = []) ∨ (r = 0 ∧ ∃ t, IsId t ∧ HoldsId w n t)

/-- the system's generator fills 16 bytes -/
def WF (e : Env) : Prop := e.bytes.length = 16 ∧ ∀ b ∈ e.bytes, b < 256

/-- the seeds with which rtl8713 never leaves its loop -/
def HangSeed (s : Nat) : Prop := s = 2 ^ 31 ∨ s = 9 * 2 ^ 28 ∨ s = 11 * 2 ^ 28 ∨ s = 13 * 2 ^ 28 ∨ s = 15 * 2 ^ 28

/-! ## The writes -/

theorem final_append (a b : List (Nat × Nat)) (i : Nat) : final (a ++ b) i = (final b i).or (final a i) := by
  induction a with
  | nil => simp [final]
  | cons x a ih =>
    obtain ⟨j, c⟩ := x
    simp only [List.cons_append, final, ih]
    cases final b i <;> simp

theorem final_store (cs : List Nat) (s i : Nat) : final (store s cs) i = if i < s then none else cs[i - s]? := by
  induction cs generalizing s with
  | nil => simp [store, final]
  | cons c cs ih =>
    simp only [store, final, ih]
    by_cases h : i < s
    · rw [if_pos (by omega : i < s + 1), if_pos h]
      simp; omega
    · rw [if_neg h]
      by_cases h2 : i = s
      · subst h2; simp
      · rw [if_neg (by omega)]
        obtain ⟨k, hk⟩ : ∃ k, i - s = k + 1 := ⟨i - s - 1, by omega⟩
        have : i - (s + 1) = k := by omega
        rw [this, hk, List.getElem?_cons_succ]
        cases cs[k]? <;> simp; omega

theorem store_mem (cs : List Nat) (s : Nat) : ∀ x ∈ store s cs, s ≤ x.1 ∧ x.1 < s + cs.length := by
  induction cs generalizing s with
  | nil => simp [store]
  | cons c cs ih =>
    intro x hx
    simp only [store, List.mem_cons] at hx
    rcases hx with rfl | hx
    · simp
    · have := ih _ x hx
      simp only [List.length_cons]; omega

theorem snp_holds (n : Nat) (t : List Nat) (hn : 1 < n) : HoldsId (snp 0 n t) n t := by
  unfold snp
  rw [if_neg (by omega)]
  refine ⟨?_, ?_⟩
  · intro x hx
    have := store_mem _ _ x hx
    simp at this; omega
  · intro i
    rw [final_store]; simp

/-! ## The texts -/

theorem hexd_hex (n : Nat) (h : n < 16) : IsHex (hexd n) := by
  unfold hexd IsHex; split <;> omega

theorem hex2_len (b : Nat) : (hex2 b).length = 2 := rfl

theorem hex2_hex (b : Nat) : ∀ c ∈ hex2 b, IsHex c := by
  intro c hc
  simp only [hex2, List.mem_cons, List.not_mem_nil, or_false] at hc
  rcases hc with rfl | rfl <;> exact hexd_hex _ (by omega)

theorem hex8_len (n : Nat) : (hex8 n).length = 8 := rfl

theorem hex8_hex (n : Nat) : ∀ c ∈ hex8 n, IsHex c := by
  intro c hc
  simp only [hex8, List.mem_append] at hc
  rcases hc with ((h | h) | h) | h <;> exact hex2_hex _ c h

theorem hexBytes_len (bs : List Nat) : (hexBytes bs).length = 2 * bs.length := by
  induction bs with
  | nil => rfl
  | cons b bs ih => simp only [hexBytes, List.flatMap_cons, List.length_append, List.length_cons] at *; rw [ih, hex2_len]; omega

theorem hexBytes_hex (bs : List Nat) : ∀ c ∈ hexBytes bs, IsHex c := by
  intro c hc
  simp only [hexBytes, List.mem_flatMap] at hc
  obtain ⟨b, _, h⟩ := hc
  exact hex2_hex b c h

theorem id8 (a b c d : Nat) : IsId (hex8 a ++ hex8 b ++ hex8 c ++ hex8 d) := by
  refine ⟨by simp [hex8_len], ?_⟩
  intro x hx
  simp only [List.mem_append] at hx
  rcases hx with ((h | h) | h) | h <;> exact hex8_hex _ x h

theorem idBytes (bs : List Nat) (h : bs.length = 16) : IsId (hexBytes bs) :=
  ⟨by rw [hexBytes_len, h], hexBytes_hex bs⟩

theorem version4_len (bs : List Nat) : (version4 bs).length = bs.length := by simp [version4]

theorem text_id (p : Port) (e : Env) (s : Nat) (t : List Nat) (hw : WF e) (h : text p e s = some t) : IsId t := by
  cases p <;> simp only [text] at h
  case harmony => split at h <;> simp at h; subst h; exact idBytes _ hw.1
  case windows => split at h <;> simp at h; subst h; exact idBytes _ (by rw [version4_len, hw.1])
  case xr872 => simp at h; subst h; exact idBytes _ hw.1
  case darwin => simp at h; subst h; exact idBytes _ (by rw [version4_len, hw.1])
  all_goals (injection h with h; subst h; exact id8 _ _ _ _)

/-! ## The two loops -/

theorem toInt_eq (n : Nat) (h : n < 2 ^ 31) : toInt n = n := by
  unfold toInt
  rw [Nat.mod_eq_of_lt (by omega), if_pos h]

theorem toSize_eq (n : Nat) (h : n < 2 ^ 31) : toSize (toInt n) = n := by
  rw [toInt_eq n h]; unfold toSize
  rw [if_neg (by omega)]; simp

theorem harmony_loop (n : Nat) (hn : 1 < n) : ∀ (bs : List Nat) (d : Nat), d ≤ n - 1 →
    harmonyLoop n bs d = store d ((hexBytes bs).take (n - 1 - d) ++ [0]) := by
  intro bs
  induction bs with
  | nil => intro d _; simp [harmonyLoop, hexBytes, store]
  | cons b bs ih =>
    intro d hd
    simp only [harmonyLoop, hexBytes, List.flatMap_cons, hex2, List.cons_append, List.nil_append] at *
    by_cases h : d < n - 1
    · rw [if_pos h]
      by_cases h2 : d + 1 < n - 1
      · rw [if_pos h2, ih _ (by omega)]
        obtain ⟨k, hk⟩ : ∃ k, n - 1 - d = k + 2 := ⟨n - 1 - d - 2, by omega⟩
        have hk' : n - 1 - (d + 2) = k := by omega
        rw [hk', hk]; simp [store]
      · rw [if_neg h2, ih _ (by omega)]
        have h3 : n - 1 - d = 1 := by omega
        have h4 : n - 1 - (d + 1) = 0 := by omega
        rw [h4, h3]; simp [store]
    · rw [if_neg h]
      have h3 : n - 1 - d = 0 := by omega
      rw [h3]; simp [store]

theorem store_append (s : Nat) (a b : List Nat) : store s (a ++ b) = store s a ++ store (s + a.length) b := by
  induction a generalizing s with
  | nil => simp [store]
  | cons c a ih => simp only [List.cons_append, store, ih, List.length_cons]; congr 3; omega

/-- Where there is room for whole bytes, darwin's loop leaves the text. -/
theorem darwin_loop (n : Nat) (hn : 1 < n) : ∀ (bs : List Nat) (d : Nat), d ≤ n - 1 → (n % 2 = 1 ∨ d + 2 * bs.length < n) → d % 2 = 0 →
    InBounds (darwinLoop n bs d) n ∧
      ∀ i, final (darwinLoop n bs d) i = if i < d then none else ((hexBytes bs).take (n - 1 - d) ++ [0])[i - d]? := by
  intro bs
  induction bs with
  | nil =>
    intro d hd _ _
    refine ⟨?_, ?_⟩
    · intro x hx; simp [darwinLoop] at hx; subst hx; simp; omega
    · intro i
      have : darwinLoop n [] d = store d [0] := by simp [darwinLoop, store]
      rw [this, final_store]; simp [hexBytes]
  | cons b bs ih =>
    intro d hd hodd hev
    simp only [darwinLoop]
    by_cases h : d < n - 1
    · rw [if_pos h]
      have hd2 : d + 2 ≤ n - 1 := by simp only [List.length_cons] at hodd; omega
      obtain ⟨ib, hf⟩ := ih (d + 2) hd2 (by simp only [List.length_cons] at hodd; omega) (by omega)
      have hs : snp d (n - d) (hex2 b) = store d (hex2 b ++ [0]) := by
        unfold snp
        rw [if_neg (by omega), List.take_of_length_le (by rw [hex2_len]; omega)]
      refine ⟨?_, ?_⟩
      · intro x hx
        rw [List.mem_append] at hx
        rcases hx with hx | hx
        · rw [hs] at hx
          have := store_mem _ _ x hx
          simp [hex2_len] at this; omega
        · exact ib x hx
      · intro i
        rw [final_append, hf i, hs, final_store]
        obtain ⟨k, hk⟩ : ∃ k, n - 1 - d = k + 2 := ⟨n - 1 - d - 2, by omega⟩
        have hk' : n - 1 - (d + 2) = k := by omega
        rw [hk', hk]
        simp only [hexBytes, List.flatMap_cons, hex2, List.cons_append, List.nil_append, List.take_succ_cons]
        by_cases h1 : i < d
        · have h2 : i < d + 2 := by omega
          simp only [h1, h2, if_true]; rfl
        · by_cases h2 : i < d + 2
          · simp only [h1, h2, if_true, if_false]
            rcases (by omega : i = d ∨ i = d + 1) with rfl | rfl
            · simp
            · simp
          · simp only [h1, h2, if_false]
            obtain ⟨j, hj⟩ : ∃ j, i - d = j + 2 := ⟨i - d - 2, by omega⟩
            have hj' : i - (d + 2) = j := by omega
            rw [hj', hj]
            simp only [List.getElem?_cons_succ]
            cases hq : (List.take k (List.flatMap hex2 bs) ++ [0])[j]? with
            | some v => simp
            | none =>
              have : j ≠ 0 := by
                intro h0; subst h0
                have := List.getElem?_eq_none_iff.1 hq
                simp at this
              obtain ⟨j', rfl⟩ : ∃ j', j = j' + 1 := ⟨j - 1, by omega⟩
              simp
    · rw [if_neg h]
      have hz : n - 1 - d = 0 := by omega
      refine ⟨?_, ?_⟩
      · intro x hx; simp at hx; subst hx; simp; omega
      · intro i
        have : [(d, 0)] = store d [0] := by simp [store]
        rw [this, final_store, hz]; simp

/-- Where the room is odd — an even size that cannot take the whole text — darwin's loop writes the zero behind the buffer. -/
theorem darwin_over (n : Nat) (hn : n % 2 = 0) : ∀ (bs : List Nat) (d : Nat), d % 2 = 0 → d ≤ n → n ≤ d + 2 * bs.length → 2 ≤ n →
    (n, 0) ∈ darwinLoop n bs d := by
  intro bs
  induction bs with
  | nil => intro d _ h1 h2 _; have : d = n := by simp at h2; omega
           subst this; simp [darwinLoop]
  | cons b bs ih =>
    intro d hd h1 h2 h3
    simp only [darwinLoop, List.length_cons] at *
    by_cases h : d < n - 1
    · rw [if_pos h, List.mem_append]
      exact Or.inr (ih (d + 2) (by omega) (by omega) (by omega) h3)
    · rw [if_neg h]
      have : d = n := by omega
      subst this; simp

/-! ## The seed of rtl8713 -/

theorem pow7 (j : Nat) : ∃ q, 7 ^ (2 ^ (j + 1)) = 1 + 2 ^ (j + 4) * (2 * q + 1) := by
  induction j with
  | zero => exact ⟨1, by decide⟩
  | succ j ih =>
    obtain ⟨q, hq⟩ := ih
    refine ⟨q + 2 ^ (j + 2) * ((2 * q + 1) * (2 * q + 1)), ?_⟩
    have e1 : 2 ^ (j + 1 + 1) = 2 ^ (j + 1) + 2 ^ (j + 1) := by rw [Nat.pow_succ]; omega
    have e0 : 7 ^ (2 ^ (j + 1 + 1)) = (1 + 2 ^ (j + 4) * (2 * q + 1)) * (1 + 2 ^ (j + 4) * (2 * q + 1)) := by rw [e1, Nat.pow_add, hq]
    rw [e0]
    have e2 : 2 ^ (j + 1 + 4) = 2 ^ (j + 4) * 2 := by rw [← Nat.pow_succ]
    have e3 : 2 ^ (j + 4) = 2 ^ (j + 2) * 4 := by rw [show j + 4 = j + 2 + 2 by omega, Nat.pow_add]
    rw [e2, e3]
    generalize 2 ^ (j + 2) = A
    clear e0 e1 e2 e3 hq
    grind

theorem odd_part : ∀ s : Nat, 0 < s → ∃ a v, s = 2 ^ a * (2 * v + 1) := by
  intro s
  induction s using Nat.strongRecOn with
  | ind s ih =>
    intro h
    by_cases h2 : s % 2 = 1
    · exact ⟨0, s / 2, by simp; omega⟩
    · obtain ⟨a, v, hv⟩ := ih (s / 2) (by omega) (by omega)
      refine ⟨a + 1, v, ?_⟩
      have : s = 2 * (s / 2) := by omega
      rw [this, hv, Nat.pow_succ]; grind

theorem times7_mod (k s : Nat) : (7 ^ k * (7 * s % 2 ^ 32)) % 2 ^ 32 = (7 ^ (k + 1) * s) % 2 ^ 32 := by
  rw [Nat.mul_mod, Nat.mod_mod, ← Nat.mul_mod, show 7 ^ (k + 1) * s = 7 ^ k * (7 * s) by rw [Nat.pow_succ, Nat.mul_assoc]]

/-- If some multiple by a power of 7 is small, the loop ends. -/
theorem rtl_ends (k : Nat) : ∀ s, s < 2 ^ 32 → (7 ^ k * s) % 2 ^ 32 < 2 ^ 31 → ∃ fuel v, rtlSeed fuel s = some v := by
  induction k with
  | zero =>
    intro s hs h
    refine ⟨1, s, ?_⟩
    simp only [Nat.pow_zero, Nat.one_mul] at h
    rw [Nat.mod_eq_of_lt hs] at h
    simp only [rtlSeed]
    rw [if_neg (by omega)]
  | succ k ih =>
    intro s hs h
    by_cases hb : s > 2 ^ 31 - 1
    · obtain ⟨f, v, hv⟩ := ih (times7 s) (by unfold times7 u32; exact Nat.mod_lt _ (by decide)) (by
        unfold times7 u32; rw [times7_mod]; exact h)
      exact ⟨f + 1, v, by simp only [rtlSeed]; rw [if_pos hb]; exact hv⟩
    · exact ⟨1, s, by simp only [rtlSeed]; rw [if_neg hb]⟩

theorem rtl_hangs : ∀ fuel s, HangSeed s → rtlSeed fuel s = none := by
  intro fuel
  induction fuel with
  | zero => intro s _; rfl
  | succ f ih =>
    intro s h
    simp only [rtlSeed]
    rw [if_pos (by unfold HangSeed at h; omega)]
    apply ih
    unfold HangSeed times7 u32 at *
    omega

theorem rtl_ends_iff (s : Nat) (hs : s < 2 ^ 32) : (∃ fuel v, rtlSeed fuel s = some v) ↔ ¬ HangSeed s := by
  constructor
  · rintro ⟨f, v, h⟩ hh
    rw [rtl_hangs f s hh] at h; simp at h
  · intro hn
    by_cases hb : s < 2 ^ 31
    · exact rtl_ends 0 s hs (by simp; omega)
    · obtain ⟨a, v, rfl⟩ := odd_part s (by omega)
      by_cases ha : a ≤ 27
      · obtain ⟨q, hq⟩ := pow7 (27 - a)
        refine rtl_ends (2 ^ (27 - a + 1)) _ hs ?_
        rw [hq]
        have e : 2 ^ (27 - a + 4) * 2 ^ a = 2 ^ 31 := by rw [← Nat.pow_add]; congr 1; omega
        have e2 : (1 + 2 ^ (27 - a + 4) * (2 * q + 1)) * (2 ^ a * (2 * v + 1)) = 2 ^ a * (2 * v + 1) + 2 ^ 31 * ((2 * q + 1) * (2 * v + 1)) := by
          rw [← e]; grind
        have e3 : (2 * q + 1) * (2 * v + 1) = 2 * (2 * q * v + q + v) + 1 := by grind
        rw [e2, e3]
        generalize 2 ^ a * (2 * v + 1) = S at *
        omega
      · have ha2 : a < 32 := by
          rcases Nat.lt_or_ge a 32 with h | h
          · exact h
          · have := Nat.pow_le_pow_right (show 0 < 2 by decide) h
            have h2 := Nat.mul_le_mul this (show 1 ≤ 2 * v + 1 by omega)
            omega
        unfold HangSeed at hn
        rcases (by omega : a = 28 ∨ a = 29 ∨ a = 30 ∨ a = 31) with rfl | rfl | rfl | rfl
        · omega
        · exact rtl_ends 1 _ hs (by omega)
        · exact rtl_ends 1 _ hs (by omega)
        · omega

/-! ## C199 -/

/-- The claim as a user would rely on it, on port `p`: whatever the platform answers, for every buffer of more than one byte, the call comes back, and well. -/
def IdAlways (p : Port) : Prop := ∀ e n, WF e → 1 < n → n < 2 ^ 31 → ∃ fuel, GoodCall n (getUuid fuel p e n)

theorem snp_good (p : Port) (e : Env) (s n : Nat) (hw : WF e) (h1 : 1 < n) (h2 : n < 2 ^ 31) :
    GoodCall n (match text p e s with
      | none => .ret (-1) []
      | some t => .ret 0 (snp 0 (toSize (toInt n)) t)) := by
  cases h : text p e s with
  | none => exact Or.inl ⟨rfl, rfl⟩
  | some t =>
    refine Or.inr ⟨rfl, t, text_id p e s t hw h, ?_⟩
    rw [toSize_eq n h2]; exact snp_holds n t h1

theorem not_small (n : Nat) (h1 : 1 < n) (h2 : n < 2 ^ 31) : ¬ toInt n ≤ 1 := by rw [toInt_eq n h2]; omega

/-- C199, on every port but darwin and rtl8713: the buffer holds an id cut to fit, no byte outside it is written. -/
theorem C199_port_id_partial (p : Port) (h1 : p ≠ .darwin) (h2 : p ≠ .rtl8713) : IdAlways p := by
  intro e n hw hn hn2
  refine ⟨0, ?_⟩
  have hs := not_small n hn hn2
  have hg := snp_good p e 0 n hw hn hn2
  cases p <;> simp only [getUuid] <;> try rw [if_neg hs]
  case darwin => exact absurd rfl h1
  case rtl8713 => exact absurd rfl h2
  case harmony =>
    by_cases hr : e.rngOk
    · rw [if_pos hr]
      refine Or.inr ⟨rfl, hexBytes e.bytes, idBytes _ hw.1, ?_⟩
      have : (toInt n).toNat = n := by rw [toInt_eq n hn2]; simp
      rw [this, harmony_loop n hn _ 0 (by omega)]
      have hh := snp_holds n (hexBytes e.bytes) hn
      unfold snp at hh
      rw [if_neg (by omega)] at hh
      simpa using hh
    · rw [if_neg hr]; exact Or.inl ⟨rfl, rfl⟩
  case windows =>
    cases h : text .windows e 0 with
    | none => exact Or.inl ⟨rfl, rfl⟩
    | some t =>
      have hid := text_id _ e 0 t hw h
      refine Or.inr ⟨rfl, t, hid, ?_⟩
      have hto : (toInt n).toNat = n := by rw [toInt_eq n hn2]; simp
      rw [hto]
      have hlen := hid.1
      have e1 : t.take (if n - 1 > 32 then 32 else n - 1) = t.take (n - 1) := by
        split
        · rw [List.take_of_length_le (by omega), List.take_of_length_le (by omega)]
        · rfl
      have e2 : (t.take (n - 1)).length = (if n - 1 > 32 then 32 else n - 1) := by
        rw [List.length_take, hlen]; split <;> omega
      have e3 : store 0 (t.take (if n - 1 > 32 then 32 else n - 1)) ++ [((if n - 1 > 32 then 32 else n - 1), 0)]
          = store 0 (t.take (n - 1) ++ [0]) := by
        rw [store_append, e1, e2]; simp [store]
      rw [e3]
      have hh := snp_holds n t hn
      unfold snp at hh
      rw [if_neg (by omega)] at hh
      exact hh
  all_goals exact hg

/-- C199 on rtl8713: the call comes back, with an id, exactly if the low 32 bits of the clock are not one of five values. -/
theorem C199_rtl_ends_exactly_partial (e : Env) (n : Nat) (hw : WF e) (h1 : 1 < n) (h2 : n < 2 ^ 31) :
    (∃ fuel, GoodCall n (getUuid fuel .rtl8713 e n)) ↔ ¬ HangSeed (e.tick % 2 ^ 32) := by
  have hs := not_small n h1 h2
  rw [← rtl_ends_iff _ (Nat.mod_lt _ (by decide))]
  constructor
  · rintro ⟨f, h⟩
    refine ⟨f, ?_⟩
    simp only [getUuid] at h
    rw [if_neg hs] at h
    cases hr : rtlSeed f (e.tick % 2 ^ 32) with
    | none => unfold u32 at h; rw [hr] at h; exact absurd h id
    | some v => exact ⟨v, rfl⟩
  · rintro ⟨f, v, h⟩
    refine ⟨f, ?_⟩
    simp only [getUuid]
    rw [if_neg hs]
    unfold u32
    rw [h]
    exact snp_good .rtl8713 e v n hw h1 h2

/-- Violated on rtl8713: with one of these clocks the call never returns. -/
theorem C199_rtl_hangs (e : Env) (n fuel : Nat) (h1 : 1 < n) (h2 : n < 2 ^ 31) (h : HangSeed (e.tick % 2 ^ 32)) :
    getUuid fuel .rtl8713 e n = .running := by
  simp only [getUuid]
  rw [if_neg (not_small n h1 h2)]
  unfold u32
  rw [rtl_hangs fuel _ h]

/-- C199 on darwin: good for every odd size and every size that takes the whole id. -/
theorem C199_darwin_partial (e : Env) (n : Nat) (hw : WF e) (h1 : 1 < n) (h2 : n < 2 ^ 31) (h : n % 2 = 1 ∨ 32 < n) :
    GoodCall n (getUuid 0 .darwin e n) := by
  simp only [getUuid]
  rw [if_neg (not_small n h1 h2)]
  have hto : (toInt n).toNat = n := by rw [toInt_eq n h2]; simp
  have hl : (version4 e.bytes).length = 16 := by rw [version4_len, hw.1]
  refine Or.inr ⟨rfl, hexBytes (version4 e.bytes), idBytes _ hl, ?_⟩
  rw [hto]
  obtain ⟨a, b⟩ := darwin_loop n h1 (version4 e.bytes) 0 (by omega) (by omega) (by omega)
  exact ⟨a, by intro i; rw [b i]; simp⟩

/-- Violated on darwin: with an even size from 2 to 32 the zero is written one byte behind the buffer. -/
theorem C199_darwin_overflows (e : Env) (n : Nat) (hw : WF e) (h1 : 2 ≤ n) (h2 : n ≤ 32) (h3 : n % 2 = 0) :
    ∃ w, getUuid 0 .darwin e n = .ret 0 w ∧ (n, 0) ∈ w ∧ ¬ InBounds w n := by
  have hto : (toInt n).toNat = n := by rw [toInt_eq n (by omega)]; simp
  have hm : (n, 0) ∈ darwinLoop n (version4 e.bytes) 0 :=
    darwin_over n h3 _ 0 rfl (by omega) (by rw [version4_len, hw.1]; omega) h1
  refine ⟨darwinLoop n (version4 e.bytes) 0, ?_, hm, ?_⟩
  · simp only [getUuid]
    rw [if_neg (not_small n (by omega) (by omega)), hto]
  · intro hb
    have := hb _ hm
    simp at this

/-- an environment for the examples -/
def env0 : Env := ⟨1000, 5, 4096, 77, fun i => 3 * i + 1, List.replicate 16 171, true, fun s i => s + i, 9⟩

example : WF env0 := ⟨by decide, by decide⟩

/-- the claim fails on both ports -/
theorem C199_violated : ¬ IdAlways .darwin ∧ ¬ IdAlways .rtl8713 := by
  constructor
  · intro h
    have hw : WF env0 := ⟨by decide, by decide⟩
    obtain ⟨f, hg⟩ := h env0 32 hw (by decide) (by decide)
    obtain ⟨w, hr, _, hb⟩ := C199_darwin_overflows env0 32 hw (by decide) (by decide) (by decide)
    have : getUuid f .darwin env0 32 = .ret 0 w := by rw [← hr]; rfl
    rw [this] at hg
    rcases hg with ⟨h1, _⟩ | ⟨_, t, _, h2⟩
    · exact absurd h1 (by decide)
    · exact hb h2.1
  · intro h
    obtain ⟨f, hg⟩ := h { env0 with tick := 2 ^ 31 } 33 ⟨by decide, by decide⟩ (by decide) (by decide)
    rw [C199_rtl_hangs _ 33 f (by decide) (by decide) (Or.inl (by decide))] at hg
    exact hg

/-- With a buffer of 0 bytes (the header asks for more than 1) three ports answer 0 without an id. -/
theorem C199_size_zero (p : Port) (h : p = .ac791n ∨ p = .sprd ∨ p = .sprd32k) (e : Env) (fuel : Nat) : getUuid fuel p e 0 = .ret 0 [] := by
  rcases h with rfl | rfl | rfl <;> simp [getUuid, text, toInt, toSize, snp]

/-- the other ports refuse sizes 0 and 1 -/
theorem C199_small_refused (p : Port) (h : p ≠ .ac791n ∧ p ≠ .sprd ∧ p ≠ .sprd32k) (e : Env) (fuel n : Nat) (hn : n ≤ 1) :
    getUuid fuel p e n = .ret (-1) [] := by
  have hs : toInt n ≤ 1 := by rw [toInt_eq n (by omega)]; omega
  cases p <;> simp_all [getUuid]

-- 11 bytes: 10 digits and the zero; rtl8713 with a clock above 2^31 comes back
example : getUuid 9 .xr872 env0 5 = .ret 0 [(0, 97), (1, 98), (2, 97), (3, 98), (4, 0)] := by decide +kernel
example : getUuid 0 .darwin env0 2 = .ret 0 [(0, 97), (1, 0), (2, 0)] := by decide +kernel
example : ¬ HangSeed ((2 ^ 31 + 1) % 2 ^ 32) := by unfold HangSeed; omega
example : HangSeed (9 * 2 ^ 28 % 2 ^ 32) := by unfold HangSeed; omega

/-! ## C200 -/

theorem hexd_inj (a b : Nat) (ha : a < 16) (hb : b < 16) (h : hexd a = hexd b) : a = b := by
  unfold hexd at h; split at h <;> split at h <;> omega

theorem hex2_inj (a b : Nat) (ha : a < 256) (hb : b < 256) (h : hex2 a = hex2 b) : a = b := by
  simp only [hex2, List.cons.injEq, and_true] at h
  have h1 := hexd_inj _ _ (by omega) (by omega) h.1
  have h2 := hexd_inj _ _ (by omega) (by omega) h.2
  omega

theorem hex8_inj (a b : Nat) (h : hex8 a = hex8 b) : a % 2 ^ 32 = b % 2 ^ 32 := by
  simp only [hex8] at h
  have h := List.append_inj h (by simp [hex2_len])
  have h' := List.append_inj h.1 (by simp [hex2_len])
  have h'' := List.append_inj h'.1 (by simp [hex2_len])
  have a1 := hex2_inj _ _ (by omega) (by omega) h.2
  have a2 := hex2_inj _ _ (by omega) (by omega) h'.2
  have a3 := hex2_inj _ _ (by omega) (by omega) h''.1
  have a4 := hex2_inj _ _ (by omega) (by omega) h''.2
  omega

theorem hexBytes_inj : ∀ (a b : List Nat), (∀ x ∈ a, x < 256) → (∀ x ∈ b, x < 256) → hexBytes a = hexBytes b → a = b := by
  intro a
  induction a with
  | nil =>
    intro b _ _ h
    cases b with
    | nil => rfl
    | cons => simp [hexBytes, hex2] at h
  | cons x a ih =>
    intro b ha hb h
    cases b with
    | nil => simp [hexBytes, hex2] at h
    | cons y b =>
      simp only [hexBytes, List.flatMap_cons] at h
      have h := List.append_inj h (by simp [hex2_len])
      rw [hex2_inj x y (ha x (by simp)) (hb y (by simp)) h.1,
        ih b (fun z hz => ha z (by simp [hz])) (fun z hz => hb z (by simp [hz])) h.2]

theorem id8_inj (a b c d a' b' c' d' : Nat) (h : hex8 a ++ hex8 b ++ hex8 c ++ hex8 d = hex8 a' ++ hex8 b' ++ hex8 c' ++ hex8 d') :
    a % 2 ^ 32 = a' % 2 ^ 32 ∧ b % 2 ^ 32 = b' % 2 ^ 32 ∧ c % 2 ^ 32 = c' % 2 ^ 32 ∧ d % 2 ^ 32 = d' % 2 ^ 32 := by
  have h1 := List.append_inj h (by simp [hex8_len])
  have h2 := List.append_inj h1.1 (by simp [hex8_len])
  have h3 := List.append_inj h2.1 (by simp [hex8_len])
  exact ⟨hex8_inj _ _ h3.1, hex8_inj _ _ h3.2, hex8_inj _ _ h2.2, hex8_inj _ _ h1.2⟩

/-- Two calls whose random material differs — the device's hardware words, the system's random bytes or the chip's number — give different ids. -/
def IdTells (p : Port) : Prop := ∀ e e' s s' t, WF e → WF e' →
  text p e s = some t → text p e' s' = some t → e.hw 0 % 2 ^ 32 = e'.hw 0 % 2 ^ 32 ∧ e.bytes = e'.bytes ∧ e.chip % 2 ^ 32 = e'.chip % 2 ^ 32

/-- C200, what holds, by port: the same id means the same random bytes, words or chip number. -/
theorem C200_bytes_partial (p : Port) (hp : p = .xr872 ∨ p = .harmony) (e e' : Env) (s s' : Nat) (t : List Nat) (h1 : WF e) (h2 : WF e')
    (h : text p e s = some t) (h' : text p e' s' = some t) : e.bytes = e'.bytes := by
  rcases hp with rfl | rfl
  · simp only [text, Option.some.injEq] at h h'
    exact hexBytes_inj _ _ h1.2 h2.2 (h.trans h'.symm)
  · simp only [text] at h h'
    split at h <;> split at h' <;> simp at h h'
    exact hexBytes_inj _ _ h1.2 h2.2 (h.trans h'.symm)

theorem version4_byte (bs : List Nat) (h : ∀ b ∈ bs, b < 256) : ∀ b ∈ version4 bs, b < 256 := by
  intro b hb
  unfold version4 at hb
  rcases List.mem_or_eq_of_mem_set hb with hb | rfl
  · rcases List.mem_or_eq_of_mem_set hb with hb | rfl
    · exact h b hb
    · omega
  · omega

/-- On windows and darwin all but six bits of the 16 bytes are told apart: every other byte, 4 bits of the seventh, 6 of the ninth. -/
theorem C200_version4_partial (p : Port) (hp : p = .windows ∨ p = .darwin) (e e' : Env) (s s' : Nat) (t : List Nat) (h1 : WF e) (h2 : WF e')
    (h : text p e s = some t) (h' : text p e' s' = some t) :
    (∀ i, i ≠ 6 → i ≠ 8 → e.bytes[i]? = e'.bytes[i]?) ∧ e.bytes.getD 6 0 % 16 = e'.bytes.getD 6 0 % 16 ∧ e.bytes.getD 8 0 % 64 = e'.bytes.getD 8 0 % 64 := by
  have hv : version4 e.bytes = version4 e'.bytes := by
    rcases hp with rfl | rfl
    · simp only [text] at h h'
      split at h <;> split at h' <;> simp at h h'
      exact hexBytes_inj _ _ (version4_byte _ h1.2) (version4_byte _ h2.2) (h.trans h'.symm)
    · simp only [text, Option.some.injEq] at h h'
      exact hexBytes_inj _ _ (version4_byte _ h1.2) (version4_byte _ h2.2) (h.trans h'.symm)
  have hg : ∀ i : Nat, (version4 e.bytes)[i]? = (version4 e'.bytes)[i]? := by rw [hv]; intro i; rfl
  have l1 := h1.1
  have l2 := h2.1
  refine ⟨?_, ?_, ?_⟩
  · intro i h6 h8
    have := hg i
    simp only [version4, List.getElem?_set_ne (Ne.symm h8), List.getElem?_set_ne (Ne.symm h6)] at this
    exact this
  · have := hg 6
    simp [version4, l1, l2] at this
    simpa [List.getD, l1, l2] using this
  · have := hg 8
    simp [version4, l1, l2] at this
    simpa [List.getD, l1, l2] using this

/-- On bk725x and on the spreadtrum chips with the sleep counter: the same id means the same word of hardware. -/
theorem C200_words_partial (p : Port) (hp : p = .bk725x ∨ p = .sprd32k) (e e' : Env) (s s' : Nat) (t : List Nat)
    (h : text p e s = some t) (h' : text p e' s' = some t) : e.hw 0 % 2 ^ 32 = e'.hw 0 % 2 ^ 32 ∧ e.tick % 2 ^ 32 = e'.tick % 2 ^ 32 := by
  rcases hp with rfl | rfl <;> simp only [text, Option.some.injEq] at h h' <;>
    have hh := id8_inj _ _ _ _ _ _ _ _ (h.trans h'.symm)
  · exact ⟨hh.2.2.1, hh.2.1⟩
  · exact ⟨hh.2.2.1, hh.1⟩

/-- On esp32 and bk725x the id tells the chip's number and the clock apart. -/
theorem C200_chip_partial (p : Port) (hp : p = .esp32 ∨ p = .bk725x) (e e' : Env) (s s' : Nat) (t : List Nat)
    (h : text p e s = some t) (h' : text p e' s' = some t) : e.chip % 2 ^ 32 = e'.chip % 2 ^ 32 ∧ e.tick % 2 ^ 32 = e'.tick % 2 ^ 32 := by
  rcases hp with rfl | rfl <;> simp only [text, Option.some.injEq] at h h' <;>
    have hh := id8_inj _ _ _ _ _ _ _ _ (h.trans h'.symm) <;> exact ⟨hh.1, hh.2.1⟩

/-- On esp32 the two hardware words too. -/
theorem C200_esp_words_partial (e e' : Env) (s s' : Nat) (t : List Nat)
    (h : text .esp32 e s = some t) (h' : text .esp32 e' s' = some t) :
    e.hw 0 % 2 ^ 32 = e'.hw 0 % 2 ^ 32 ∧ e.hw 1 % 2 ^ 32 = e'.hw 1 % 2 ^ 32 := by
  have hc := C200_chip_partial .esp32 (Or.inl rfl) e e' s s' t h h'
  simp only [text, Option.some.injEq] at h h'
  have hh := id8_inj _ _ _ _ _ _ _ _ (h.trans h'.symm)
  have c1 : BitVec.ofNat 32 e.chip = BitVec.ofNat 32 e'.chip := BitVec.eq_of_toNat_eq (by simpa using hc.1)
  have c2 : BitVec.ofNat 32 e.tick = BitVec.ofNat 32 e'.tick := BitVec.eq_of_toNat_eq (by simpa using hc.2)
  rw [c1, c2] at hh
  have key : ∀ (x y : Nat) (m : BitVec 32), (BitVec.ofNat 32 x ^^^ m).toNat % 2 ^ 32 = (BitVec.ofNat 32 y ^^^ m).toNat % 2 ^ 32 →
      x % 2 ^ 32 = y % 2 ^ 32 := by
    intro x y m hm
    rw [Nat.mod_eq_of_lt (BitVec.isLt _), Nat.mod_eq_of_lt (BitVec.isLt _)] at hm
    have hb := BitVec.eq_of_toNat_eq hm
    have : BitVec.ofNat 32 x = BitVec.ofNat 32 y := by
      have := congrArg (· ^^^ m) hb
      simpa [BitVec.xor_assoc] using this
    simpa using congrArg BitVec.toNat this
  exact ⟨key _ _ _ hh.2.2.1, key _ _ _ hh.2.2.2⟩

/-- On ac791n: all of the first and the last word, and the other two up to the fixed bits. -/
theorem C200_ac_partial (e e' : Env) (s s' : Nat) (t : List Nat)
    (h : text .ac791n e s = some t) (h' : text .ac791n e' s' = some t) :
    e.hw 0 % 2 ^ 32 = e'.hw 0 % 2 ^ 32 ∧ e.hw 3 % 2 ^ 32 = e'.hw 3 % 2 ^ 32 ∧ e.hw 2 % 2 ^ 30 = e'.hw 2 % 2 ^ 30 ∧
      e.hw 1 % 2 ^ 12 = e'.hw 1 % 2 ^ 12 ∧ e.hw 1 % 2 ^ 32 / 2 ^ 16 = e'.hw 1 % 2 ^ 32 / 2 ^ 16 := by
  simp only [text, Option.some.injEq] at h h'
  have hh := id8_inj _ _ _ _ _ _ _ _ (h.trans h'.symm)
  unfold u32 at hh
  refine ⟨hh.1, hh.2.2.2, ?_, ?_, ?_⟩ <;> omega

/-- Violated: on tw82x the id is a function of the clock and the C library's `rand` alone: two devices that ask at the same time after start get the same id, whatever
their chips' numbers, heaps or hardware words. -/
theorem C200_tw82x_same (e e' : Env) (s s' : Nat) (ht : e.tick % 2 ^ 32 = e'.tick % 2 ^ 32) (hr : e.rnd = e'.rnd) : text .tw82x e s = text .tw82x e' s' := by
  have h8 : ∀ a b : Nat, a % 2 ^ 32 = b % 2 ^ 32 → hex8 a = hex8 b := by
    intro a b h
    simp only [hex8]
    rw [show a / 2 ^ 24 % 256 = b / 2 ^ 24 % 256 by omega, show a / 2 ^ 16 % 256 = b / 2 ^ 16 % 256 by omega,
      show a / 2 ^ 8 % 256 = b / 2 ^ 8 % 256 by omega, show a % 256 = b % 256 by omega]
  have hb : BitVec.ofNat 32 e.tick = BitVec.ofNat 32 e'.tick := BitVec.eq_of_toNat_eq (by simpa using ht)
  simp only [text, u32, randomA4, hr, ht, hb, h8 _ _ ht]

/-- Violated: on the spreadtrum chips without the counter it is a function of the clock and the seconds … -/
theorem C200_sprd_same (e e' : Env) (s s' : Nat) (ht : e.tick = e'.tick) (hs : e.sec = e'.sec) (hr : e.rnd = e'.rnd) : text .sprd e s = text .sprd e' s' := by
  simp only [text, ht, hs, hr]

/-- … on asr1606 of the clock and the free heap … -/
theorem C200_asr_same (e e' : Env) (s s' : Nat) (ht : e.tick = e'.tick) (hs : e.heap = e'.heap) (hr : e.rnd = e'.rnd) : text .asr1606 e s = text .asr1606 e' s' := by
  simp only [text, ht, hs, hr]

/-- … and on ipro7 of the clock and a number of `rand`. -/
theorem C200_ipro7_same (e e' : Env) (s s' : Nat) (ht : e.tick = e'.tick) (hs : e.prev = e'.prev) (hr : e.rnd = e'.rnd) : text .ipro7 e s = text .ipro7 e' s' := by
  simp only [text, ht, hs, hr]

/-- Four ports give two devices with different chips, hardware words and random bytes one id. -/
theorem C200_violated (p : Port) (hp : p = .tw82x ∨ p = .sprd ∨ p = .asr1606 ∨ p = .ipro7) : ¬ IdTells p := by
  intro h
  have hw : WF env0 := ⟨by decide, by decide⟩
  let e' : Env := { env0 with chip := 78, hw := fun _ => 5, bytes := List.replicate 16 1 }
  have hw' : WF e' := ⟨by decide, by decide⟩
  rcases hp with rfl | rfl | rfl | rfl
  · have := h env0 e' 0 0 _ hw hw' rfl (C200_tw82x_same env0 e' 0 0 rfl rfl).symm
    exact absurd this.2.2 (by decide)
  · have := h env0 e' 0 0 _ hw hw' rfl (C200_sprd_same env0 e' 0 0 rfl rfl rfl).symm
    exact absurd this.2.2 (by decide)
  · have := h env0 e' 0 0 _ hw hw' rfl (C200_asr_same env0 e' 0 0 rfl rfl rfl).symm
    exact absurd this.2.2 (by decide)
  · have := h env0 e' 0 0 _ hw hw' rfl (C200_ipro7_same env0 e' 0 0 rfl rfl rfl).symm
    exact absurd this.2.2 (by decide)

-- the ports' texts exist and are not constant
example : text .bk725x env0 0 ≠ text .bk725x { env0 with hw := fun _ => 7 } 0 := by decide +kernel
example : text .windows env0 0 = text .windows { env0 with bytes := env0.bytes.set 6 27 } 0 := by decide +kernel

/-! ## C201 -/

/-- the stream of bytes of the hardware's words -/
def stream (hw : Nat → Nat) (i : Nat) : Nat := hw (i / 4) / 256 ^ (i % 4) % 256

theorem esp_fill (hw : Nat → Nat) (len : Nat) : ∀ k, 4 * k ≤ len + 3 →
    espFill hw len (4 * k) k = (List.range' (4 * k) (len - 4 * k)).map (stream hw) := by
  have key : ∀ m k, len - 4 * k ≤ m → espFill hw len (4 * k) k = (List.range' (4 * k) (len - 4 * k)).map (stream hw) := by
    intro m
    induction m with
    | zero =>
      intro k hm
      rw [espFill, dif_neg (by omega), show len - 4 * k = 0 by omega]; rfl
    | succ m ih =>
      intro k hm
      have st : ∀ j, j < 4 → stream hw (4 * k + j) = hw k / 256 ^ j % 256 := by
        intro j hj
        unfold stream
        rw [show (4 * k + j) / 4 = k by omega, show (4 * k + j) % 4 = j by omega]
      have s0 := st 0 (by omega)
      have s1 := st 1 (by omega)
      have s2 := st 2 (by omega)
      have s3 := st 3 (by omega)
      simp only [Nat.add_zero, Nat.pow_zero, Nat.div_one] at s0
      rw [show (256 : Nat) ^ 1 = 256 by decide] at s1
      rw [show (256 : Nat) ^ 2 = 65536 by decide] at s2
      rw [show (256 : Nat) ^ 3 = 16777216 by decide] at s3
      rw [espFill]
      by_cases h : 4 * k < len
      · rw [dif_pos h]
        by_cases h4 : len - 4 * k ≥ 4
        · rw [if_pos h4, show 4 * k + 4 = 4 * (k + 1) by omega, ih (k + 1) (by omega)]
          obtain ⟨r, hr⟩ : ∃ r, len - 4 * k = r + 4 := ⟨len - 4 * k - 4, by omega⟩
          rw [hr, show len - 4 * (k + 1) = r by omega, show r + 4 = 4 + r by omega, ← List.range'_append_1, List.map_append]
          congr 1
          simp [List.range', wordBytes, s0, s1, s2, s3]
        · rw [if_neg h4]
          rcases (by omega : len - 4 * k = 1 ∨ len - 4 * k = 2 ∨ len - 4 * k = 3) with hr | hr | hr <;> rw [hr] <;>
            simp [List.range', wordBytes, s0, s1, s2]
      · rw [dif_neg h, show len - 4 * k = 0 by omega]; rfl
  intro k _
  exact key (len - 4 * k) k (Nat.le_refl _)

/-- The claim: after the answer 0 exactly the `len` bytes asked for have been filled. -/
def FillsExactly (p : Port) : Prop := ∀ (e : Env) (sys : List Nat) (len : Nat), 0 < len → len ≤ sys.length →
  (randBytes p e sys len).1 = 0 → (randBytes p e sys len).2.length = len

/-- C201 for lengths an `int` can hold: on esp32 the bytes are those of the hardware's words in their order, none twice, none left out; on windows and harmony the system's;
the other ports fail and store nothing. -/
theorem C201_fills_partial (p : Port) (e : Env) (sys : List Nat) (len : Nat) (h0 : 0 < len) (h1 : len < 2 ^ 31) (hs : len ≤ sys.length) :
    (p = .esp32 → randBytes p e sys len = (0, (List.range len).map (stream e.hw))) ∧
    (p = .windows ∨ p = .harmony → randBytes p e sys len = if e.rngOk then (0, sys.take len) else (-1, [])) ∧
    (p ≠ .esp32 → p ≠ .windows → p ≠ .harmony → randBytes p e sys len = (-1, [])) ∧
    ((randBytes p e sys len).1 = 0 → (randBytes p e sys len).2.length = len) := by
  have hn : ¬ toInt len ≤ 0 := by rw [toInt_eq len h1]; omega
  have hto : (toInt len).toNat = len := by rw [toInt_eq len h1]; simp
  have hf := esp_fill e.hw len 0 (by omega)
  simp only [Nat.mul_zero, Nat.sub_zero] at hf
  refine ⟨?_, ?_, ?_, ?_⟩
  · rintro rfl
    simp only [randBytes]
    rw [if_neg hn, hto, hf, List.range_eq_range']
  · rintro (rfl | rfl) <;> simp only [randBytes] <;> rw [if_neg hn, hto]
  · intro a b c
    cases p <;> simp_all [randBytes]
  · cases p <;> simp only [randBytes] <;> try (intro h; exact absurd h (by decide))
    · rw [if_neg hn, hto, hf]; simp
    · rw [if_neg hn, hto]; split
      · intro _; rw [List.length_take]; omega
      · intro h; exact absurd h (by decide)
    · rw [if_neg hn, hto]; split
      · intro _; rw [List.length_take]; omega
      · intro h; exact absurd h (by decide)

/-- Violated: a length of 2^32 + n is taken for n — the call answers 0 with n bytes filled. -/
theorem C201_truncated (e : Env) (sys : List Nat) (n : Nat) (h0 : 0 < n) (h1 : n < 2 ^ 31) :
    randBytes .esp32 e sys (2 ^ 32 + n) = randBytes .esp32 e sys n ∧ (randBytes .esp32 e sys (2 ^ 32 + n)).1 = 0 := by
  have : toInt (2 ^ 32 + n) = toInt n := by
    unfold toInt; rw [show (2 ^ 32 + n) % 2 ^ 32 = n % 2 ^ 32 by omega]
  have hn : ¬ toInt n ≤ 0 := by rw [toInt_eq n h1]; omega
  simp only [randBytes]
  rw [this, if_neg hn]
  exact ⟨rfl, rfl⟩

theorem C201_violated : ¬ FillsExactly .esp32 := by
  intro h
  have hn : (List.replicate (2 ^ 32 + 1) 0).length = 2 ^ 32 + 1 := List.length_replicate
  have := h env0 (List.replicate (2 ^ 32 + 1) 0) (2 ^ 32 + 1) (by decide)
    (by rw [hn]; exact Nat.le_refl _) (C201_truncated env0 _ 1 (by decide) (by decide)).2
  rw [(C201_truncated env0 _ 1 (by decide) (by decide)).1] at this
  have h1 : (randBytes .esp32 env0 (List.replicate (2 ^ 32 + 1) 0) 1).2 = [1] := by
    simp [randBytes, toInt, espFill, wordBytes, env0]
  rw [h1] at this
  simp at this

example : (randBytes .esp32 env0 (List.replicate 6 0) 6).2 = [1, 0, 0, 0, 4, 0] := by
  simp [randBytes, toInt, espFill, wordBytes, env0]

/-- On ac791n the id has the form of a random one: the 13th digit is 4, the 17th is 8, 9, a or b. -/
theorem C200_ac_form (e : Env) (s : Nat) (t : List Nat) (h : text .ac791n e s = some t) : t.length = 32 ∧ t[12]? = some '4'.toNat ∧
    (t[16]? = some '8'.toNat ∨ t[16]? = some '9'.toNat ∨ t[16]? = some 'a'.toNat ∨ t[16]? = some 'b'.toNat) := by
  simp only [text, Option.some.injEq] at h
  subst h
  refine ⟨by simp [hex8, hex2], ?_, ?_⟩
  · simp only [hex8, hex2, List.cons_append, List.nil_append, List.getElem?_cons_succ, List.getElem?_cons_zero, Option.some.injEq]
    generalize u32 (e.hw 1) = r
    have : (r / 65536 * 65536 + 16384 + r % 4096) / 2 ^ 8 % 256 / 16 % 16 = 4 := by omega
    rw [this]
    rfl
  · simp only [hex8, hex2, List.cons_append, List.nil_append, List.getElem?_cons_succ, List.getElem?_cons_zero, Option.some.injEq]
    generalize u32 (e.hw 2) = r
    have : (r % 2 ^ 30 + 2 ^ 31) / 2 ^ 24 % 256 / 16 % 16 = 8 ∨ (r % 2 ^ 30 + 2 ^ 31) / 2 ^ 24 % 256 / 16 % 16 = 9 ∨
        (r % 2 ^ 30 + 2 ^ 31) / 2 ^ 24 % 256 / 16 % 16 = 10 ∨ (r % 2 ^ 30 + 2 ^ 31) / 2 ^ 24 % 256 / 16 % 16 = 11 := by omega
    rcases this with h | h | h | h <;> rw [h]
    · exact .inl rfl
    · exact .inr (.inl rfl)
    · exact .inr (.inr (.inl rfl))
    · exact .inr (.inr (.inr rfl))


end Verif.PortUtilProps
