import Verif.PortPrio
/-
  Claims C210 (priority classes on the ports) and C211 (log lines on the ports).
-/
namespace Verif.PortPrio
open Verif.PortSock (Port)

/-- The ports whose priorities do not depend on what the system fixes. -/
def fixedOrder (p : Port) : Prop := p = .ac791n ∨ p = .rtl8713 ∨ p = .windows ∨ p = .xr872

/-- The ports that do not look at the class. -/
def ignores (p : Port) : Prop := p = .asr1606 ∨ p = .bk725x ∨ p = .esp32 ∨ p = .ipro7 ∨ p = .spreadtrum

theorem cls {c : Int} (h1 : 1 ≤ c) (h2 : c ≤ 5) : c = 1 ∨ c = 2 ∨ c = 3 ∨ c = 4 ∨ c = 5 := by omega

/-- C210: a class outside the documented ones is refused on every port, and a documented one never is. -/
theorem C210_refused (p : Port) (s : Sys) (c : Int) : prio p s c = none ↔ c < 0 ∨ c > 5 := by
  unfold prio
  by_cases h : c < 0 ∨ c > 5
  · simp [h]
  · simp only [h, if_false, iff_false]
    by_cases h2 : 1 ≤ c ∧ c ≤ 5
    · simp only [h2, and_self, if_true]
      cases bySet p s c.toNat <;> simp
    · simp only [h2, if_false]
      simp

/-- C210 (partial: ac791n, rtl8713, windows, xr872): a higher class gets a strictly higher priority. -/
theorem C210_strict_partial (p : Port) (hp : fixedOrder p) (s : Sys) (c d : Int) (h1 : 1 ≤ c) (h2 : c < d) (h3 : d ≤ 5) :
    ∃ x y, prio p s c = some x ∧ prio p s d = some y ∧ x < y := by
  rcases cls h1 (by omega) with rfl | rfl | rfl | rfl | rfl <;>
  rcases cls (by omega) h3 with rfl | rfl | rfl | rfl | rfl <;>
  first
  | omega
  | (rcases hp with rfl | rfl | rfl | rfl <;>
     simp [prio, bySet, atCreate, acPrio, rtlPrio, winPrio])

/-- C210 (partial: tw82x, when the SDK's own priorities are in order and leave room above the high one): the same. -/
theorem C210_tw82x_partial (s : Sys) (hl : s.twLow < s.twNormal) (hn : s.twNormal < s.twHigh) (hr : s.twHigh + 5 < s.twReal)
    (c d : Int) (h1 : 1 ≤ c) (h2 : c < d) (h3 : d ≤ 5) :
    ∃ x y, prio .tw82x s c = some x ∧ prio .tw82x s d = some y ∧ x < y := by
  rcases cls h1 (by omega) with rfl | rfl | rfl | rfl | rfl <;>
  rcases cls (by omega) h3 with rfl | rfl | rfl | rfl | rfl <;>
  first
  | omega
  | (simp [prio, bySet, atCreate, twPrio]; omega)

/-- C210 (partial: darwin and harmony, where the range has room and setting is permitted): a higher class gets a strictly higher priority, and every priority lies inside the range. The range of SCHED_RR is never negative. -/
theorem C210_rr_partial (p : Port) (hp : p = .darwin ∨ p = .harmony) (s : Sys) (hs : s.permitted = true) (h0 : 0 ≤ s.min) (hm : s.min + 10 ≤ s.max)
    (he : s.min ≠ 22 ∧ s.max ≠ 22) (c d : Int) (h1 : 1 ≤ c) (h2 : c < d) (h3 : d ≤ 5) :
    ∃ x y, prio p s c = some x ∧ prio p s d = some y ∧ x < y ∧ s.min < x ∧ y < s.max := by
  have key : ∀ k : Nat, rrPrio p s k =
      if k = 1 then some (s.min + 1) else if k = 2 then some ((s.min + 1 + (s.max - 1) - 1).tdiv 2) else if k = 3 then some (s.max - 3)
      else if k = 4 then some (s.max - 2) else if k = 5 then some (s.max - 1) else none := by
    intro k
    have e1 : ¬ (p = .harmony ∧ (s.min = 22 ∨ s.max = 22)) := by intro h; omega
    have e2 : ¬ s.max - s.min ≤ 2 := by omega
    have e3 : s.max - 1 - 2 > s.min + 1 := by omega
    have e4 : s.max - 1 - 1 > s.min + 1 := by omega
    simp only [rrPrio, e1, e2, e3, e4, if_false, if_true]
    rw [show s.max - 1 - 2 = s.max - 3 by omega, show s.max - 1 - 1 = s.max - 2 by omega]
  have hb : ∀ k, bySet p s k = rrPrio p s k := by
    intro k
    rcases hp with rfl | rfl <;> simp [bySet, hs]
  have mid : s.min + 1 < (s.min + 1 + (s.max - 1) - 1).tdiv 2 ∧ (s.min + 1 + (s.max - 1) - 1).tdiv 2 < s.max - 3 := by
    rw [Int.tdiv_eq_ediv_of_nonneg (by omega)]
    omega
  rcases cls h1 (by omega) with rfl | rfl | rfl | rfl | rfl <;>
  rcases cls (by omega) h3 with rfl | rfl | rfl | rfl | rfl <;>
  first
  | omega
  | (simp [prio, hb, key]; omega)

example : prio .darwin ⟨15, 47, true, 31, 0, 0, 0, 0⟩ 2 = some 30 := by decide
example : fixedOrder .xr872 := by simp [fixedOrder]

/-- C210 (violated on asr1606, bk725x, esp32, ipro7, spreadtrum): every class gets the same priority. -/
theorem C210_violated_ignored (p : Port) (hp : ignores p) (s : Sys) : ∃ x, ∀ c : Int, 0 ≤ c → c ≤ 5 → prio p s c = some x := by
  refine ⟨atCreate p s 0, ?_⟩
  intro c h1 h2
  have h : ¬ (c < 0 ∨ c > 5) := by omega
  rcases hp with rfl | rfl | rfl | rfl | rfl <;> simp [prio, h, bySet, atCreate]

/-- C210: the one priority of these ports: the fixed number of asr1606, esp32 and spreadtrum, the system's own on bk725x and ipro7. -/
theorem C210_ignored_value (s : Sys) (c : Int) (h1 : 0 ≤ c) (h2 : c ≤ 5) :
    prio .asr1606 s c = some 10 ∧ prio .esp32 s c = some 5 ∧ prio .spreadtrum s c = some 228 ∧
    prio .bk725x s c = some s.own ∧ prio .ipro7 s c = some s.own := by
  have h : ¬ (c < 0 ∨ c > 5) := by omega
  simp [prio, h, bySet, atCreate]

/-- C210 (violated on darwin and harmony): without the permission to set real-time priorities every class gets the same priority, and the call that made the thread still succeeds. -/
theorem C210_violated_denied (p : Port) (hp : p = .darwin ∨ p = .harmony) (s : Sys) (hs : s.permitted = false) (c : Int) (h1 : 0 ≤ c) (h2 : c ≤ 5) :
    prio p s c = some s.own := by
  have h : ¬ (c < 0 ∨ c > 5) := by omega
  rcases hp with rfl | rfl <;> simp [prio, h, bySet, atCreate, hs]

/-- C210 (violated on darwin and harmony): in the smallest ranges that are accepted, "high" and even "highest" are no higher than "low". -/
theorem C210_violated_narrow (p : Port) (hp : p = .darwin ∨ p = .harmony) (s : Sys) (hs : s.permitted = true) (h0 : 0 ≤ s.min) (hm : s.max = s.min + 3)
    (he : s.min ≠ 22 ∧ s.max ≠ 22) : prio p s 1 = prio p s 3 ∧ prio p s 1 = prio p s 4 := by
  have e1 : ¬ (p = .harmony ∧ (s.min = 22 ∨ s.max = 22)) := by intro h; omega
  have e2 : ¬ s.max - s.min ≤ 2 := by omega
  have e3 : ¬ s.max - 1 - 2 > s.min + 1 := by omega
  have e4 : ¬ s.max - 1 - 1 > s.min + 1 := by omega
  have key : ∀ k, k = 1 ∨ k = 3 ∨ k = 4 → rrPrio p s k = some (s.min + 1) := by
    intro k hk
    rcases hk with rfl | rfl | rfl <;> simp [rrPrio, e1, e2, e3, e4]
  have hb : ∀ k, bySet p s k = rrPrio p s k := by
    intro k
    rcases hp with rfl | rfl <;> simp [bySet, hs]
  simp [prio, hb, key 1, key 3, key 4]

/-- C210: where the default class comes in: with "normal" on rtl8713 and tw82x, between "normal" and "high" on ac791n, level with "high" on xr872. -/
theorem C210_default (s : Sys) :
    prio .rtl8713 s 0 = prio .rtl8713 s 2 ∧ prio .tw82x s 0 = prio .tw82x s 2 ∧
    prio .xr872 s 0 = prio .xr872 s 3 ∧
    prio .ac791n s 2 = some 10 ∧ prio .ac791n s 0 = some 15 ∧ prio .ac791n s 3 = some 20 := by
  simp [prio, bySet, atCreate, rtlPrio, twPrio, acPrio]

/-! ## C211 -/

/-- C211 (partial: ports that print directly, lines of up to 511 characters on the others): the line is printed whole. -/
theorem C211_whole_partial (p : Port) (il : Bool) (line : List Char) (h : bufSize p il = none ∨ line.length ≤ 511) : halPrint p il line = line := by
  unfold halPrint
  rcases h with h | h
  · rw [h]
  · cases hb : bufSize p il with
    | none => rfl
    | some n =>
      have hn : n = 512 := by
        cases p <;> cases il <;> simp_all [bufSize]
      subst hn
      exact List.take_of_length_le h

/-- C211: whatever the line, what is printed is a beginning of it, and never more than the buffer holds with its end mark. -/
theorem C211_prefix (p : Port) (il : Bool) (line : List Char) :
    (∃ rest, line = halPrint p il line ++ rest) ∧ (bufSize p il = some 512 → (halPrint p il line).length + 1 ≤ 512) := by
  unfold halPrint
  cases hb : bufSize p il with
  | none => exact ⟨⟨[], by simp⟩, by simp⟩
  | some n =>
    refine ⟨⟨line.drop (n - 1), (List.take_append_drop _ _).symm⟩, ?_⟩
    intro h
    have : n = 512 := by simpa using h
    subst this
    simp only [List.length_take]
    omega

/-- C211 (violated on bk725x, rtl8713, spreadtrum, tw82x and on ipro7 without its own log): of every line longer than 511 characters the end is lost, with its line feed. -/
theorem C211_violated_cut (p : Port) (il : Bool) (line : List Char) (h : 511 < line.length) :
    halPrint p il line ≠ line ↔ p = .bk725x ∨ p = .rtl8713 ∨ p = .spreadtrum ∨ p = .tw82x ∨ (p = .ipro7 ∧ il = false) := by
  have key : line.take 511 ≠ line := by
    intro e
    have := congrArg List.length e
    simp only [List.length_take] at this
    omega
  cases p <;> cases il <;> simp [halPrint, bufSize, key]

example : (halPrint .tw82x false (List.replicate 600 'x')).length = 511 := by decide +kernel
example : halPrint .windows false (List.replicate 600 'x') = List.replicate 600 'x' := by decide +kernel

end Verif.PortPrio
