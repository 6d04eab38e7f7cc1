import Verif.PortClock
/-! # Lemmas about PortClock -/
namespace Verif.PortClock
open Verif.PortTime (tick TickPort)
open Verif.SysApi (store cstr pad3)

theorem dc (d : Nat) (h : d < 10) : (Nat.digitChar d).toNat = 48 + d := by
  have : ∀ d : Fin 10, (Nat.digitChar d.val).toNat = 48 + d.val := by decide
  exact this ⟨d, h⟩

theorem dec_lt (n : Nat) (h : n < 10) : dec n = [48 + n] := by
  simp [dec, Nat.toDigits_of_lt_base h, dc n h]

theorem dec_ge (n : Nat) (h : 10 ≤ n) : dec n = dec (n / 10) ++ [48 + n % 10] := by
  unfold dec
  rw [Nat.toDigits_of_base_le (by omega) h]
  simp [dc (n % 10) (by omega)]

theorem pad2 (n : Nat) (h : n < 100) : pad 2 n = [48 + n / 10, 48 + n % 10] := by
  unfold pad
  by_cases c : n < 10
  · rw [dec_lt n c]
    have : n / 10 = 0 := by omega
    have : n % 10 = n := by omega
    simp [List.replicate, *]
  · rw [dec_ge n (by omega), dec_lt (n / 10) (by omega)]
    simp

theorem pad_3 (n : Nat) (h : n < 1000) : pad 3 n = [48 + n / 100, 48 + n / 10 % 10, 48 + n % 10] := by
  unfold pad
  by_cases c : n < 10
  · rw [dec_lt n c]
    have : n / 100 = 0 := by omega
    have : n / 10 = 0 := by omega
    have : n % 10 = n := by omega
    simp [List.replicate, *]
  · rw [dec_ge n (by omega)]
    by_cases c2 : n < 100
    · rw [dec_lt (n / 10) (by omega)]
      have : n / 100 = 0 := by omega
      have : n / 10 % 10 = n / 10 := by omega
      simp [List.replicate, *]
    · rw [dec_ge (n / 10) (by omega), dec_lt (n / 10 / 10) (by omega)]
      have : n / 10 / 10 = n / 100 := by omega
      simp [this]

theorem pad4 (n : Nat) (h : n < 10000) : pad 4 n = [48 + n / 1000, 48 + n / 100 % 10, 48 + n / 10 % 10, 48 + n % 10] := by
  unfold pad
  by_cases c : n < 10
  · rw [dec_lt n c]
    have : n / 1000 = 0 := by omega
    have : n / 100 = 0 := by omega
    have : n / 10 = 0 := by omega
    have : n % 10 = n := by omega
    simp [List.replicate, *]
  · rw [dec_ge n (by omega)]
    by_cases c2 : n < 100
    · rw [dec_lt (n / 10) (by omega)]
      have : n / 1000 = 0 := by omega
      have : n / 100 = 0 := by omega
      have : n / 10 % 10 = n / 10 := by omega
      simp [List.replicate, *]
    · rw [dec_ge (n / 10) (by omega)]
      by_cases c3 : n < 1000
      · rw [dec_lt (n / 10 / 10) (by omega)]
        have : n / 1000 = 0 := by omega
        have : n / 10 / 10 = n / 100 := by omega
        have : n / 100 % 10 = n / 100 := by omega
        simp [List.replicate, *]
      · rw [dec_ge (n / 10 / 10) (by omega), dec_lt (n / 10 / 10 / 10) (by omega)]
        have e1 : n / 10 / 10 = n / 100 := by omega
        have e2 : n / 100 / 10 = n / 1000 := by omega
        simp [e1, e2]

theorem dec_pos (n : Nat) : ∀ c ∈ dec n, 48 ≤ c ∧ c ≤ 57 := by
  induction n using Nat.strongRecOn with
  | _ n ih =>
    intro c hc
    by_cases h : n < 10
    · rw [dec_lt n h] at hc; simp at hc; omega
    · rw [dec_ge n (by omega), List.mem_append] at hc
      rcases hc with hc | hc
      · exact ih (n / 10) (by omega) c hc
      · simp at hc; omega

theorem pad_pos (k n : Nat) : ∀ c ∈ pad k n, 48 ≤ c ∧ c ≤ 57 := by
  intro c hc
  unfold pad at hc
  rw [List.mem_append] at hc
  rcases hc with hc | hc
  · have := List.eq_of_mem_replicate hc; omega
  · exact dec_pos n c hc

theorem uptime_pos (ms : Nat) : ∀ c ∈ uptimeText ms, c ≠ 0 := by
  intro c hc
  simp only [uptimeText, List.mem_append, List.mem_singleton] at hc
  rcases hc with (((((hc | hc) | hc) | hc) | hc) | hc) | hc
  all_goals first | (have := pad_pos _ _ c hc; omega) | omega

theorem date_pos (t : Tm) : ∀ c ∈ dateText t, c ≠ 0 := by
  intro c hc
  simp only [dateText, List.mem_append, List.mem_singleton] at hc
  rcases hc with (((((((((hc | hc) | hc) | hc) | hc) | hc) | hc) | hc) | hc) | hc) | hc
  all_goals first | (have := pad_pos _ _ c hc; omega) | omega

theorem cstr_pos (a : List Nat) : ∀ c ∈ cstr a, c ≠ 0 := by
  intro c hc
  unfold cstr at hc
  induction a with
  | nil => simp at hc
  | cons x xs ih =>
    rw [List.takeWhile_cons] at hc
    by_cases hx : x ≠ 0
    · simp [hx] at hc
      rcases hc with rfl | hc
      · exact hx
      · exact ih (by simpa using hc)
    · simp [hx] at hc

theorem local24_pos (junk : List Nat) (t : Tm) (ms : Nat) (x : List Nat) (h : local24 junk t ms = some x) : ∀ c ∈ x, c ≠ 0 := by
  unfold local24 at h
  simp only [Option.bind_eq_bind, Option.bind_eq_some_iff] at h
  obtain ⟨a, _, b, _, e⟩ := h
  cases e
  exact cstr_pos b

theorem text_pos (p : Port) (s : Sys) (junk x : List Nat) (h : text p s junk = some x) : ∀ c ∈ x, c ≠ 0 := by
  have hd : ∀ n, ∀ c ∈ dec n, c ≠ 0 := fun n c hc => by have := dec_pos n c hc; omega
  have hg : ∀ p : Port, (do let t ← s.cal ((timeMs p s).toNat / 1000); local24 junk t ((timeMs p s).toNat % 1000) : Option (List Nat)) = some x → ∀ c ∈ x, c ≠ 0 := by
    intro p h
    simp only [Option.bind_eq_bind, Option.bind_eq_some_iff] at h
    obtain ⟨t, _, e⟩ := h
    exact local24_pos _ _ _ _ e
  cases p <;> simp only [text] at h
  case ac791n => rw [← Option.some.inj h]; exact uptime_pos _
  case windows =>
    cases hc : s.cal (s.wall / 1000000) with
    | none => rw [hc] at h; cases h
    | some t =>
      rw [hc] at h
      simp only [Option.map_some, Option.some.injEq] at h
      rw [← h]
      intro c hc
      simp only [List.mem_append, List.mem_singleton] at hc
      rcases hc with (hc | hc) | hc
      · exact date_pos t c hc
      · omega
      · have := pad_pos _ _ c hc; omega
  case ipro7 =>
    split at h
    · split at h
      · exact local24_pos _ _ _ _ h
      · rw [← Option.some.inj h]; exact hd _
    · rw [← Option.some.inj h]; exact hd _
  all_goals first | (rw [← Option.some.inj h]; exact hd _) | exact hg _ h

end Verif.PortClock
