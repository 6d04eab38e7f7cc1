import Verif.WaitTime
/-! # C113: the poll wakes up in time; C114: timed waits end at their deadline -/

namespace Verif.WaitTime

theorem toInt32_id {x : Int} (h0 : 0 ≤ x) (h1 : x < 2 ^ 31) : toInt32 x = x := by
  simp only [toInt32]; omega

theorem loop_zero (sigs : List Nat) (stamp now : Nat) : waitLoop 0 stamp now sigs = some now := by
  cases sigs with
  | nil => simp [waitLoop, toInt32]
  | cons d sigs =>
    have : ¬ ((d : Int) < 0) := by omega
    simp [waitLoop, toInt32, this]

theorem loop_pos (sigs : List Nat) : ∀ (timeo : Int) (stamp now : Nat), 0 < timeo → timeo < 2 ^ 31 → stamp ≤ now →
    waitLoop timeo stamp now sigs = some (max now (stamp + timeo.toNat)) := by
  induction sigs with
  | nil =>
    intro timeo stamp now h0 h1 hs
    simp only [waitLoop, if_pos h0]
    rw [toInt32_id (by omega) (by omega), if_neg (by omega)]
    congr 1
    omega
  | cons d sigs ih =>
    intro timeo stamp now h0 h1 hs
    simp only [waitLoop, if_pos h0]
    rw [toInt32_id (by omega) (by omega)]
    split
    · rename_i h
      have hp : 0 < max (timeo - ((now - stamp : Nat) : Int)) 0 := by omega
      rw [ih _ _ _ hp (by omega) (by omega)]
      congr 1
      omega
    · congr 1; omega

/-- **C113**, for timeouts below 2^31 ms: whatever signals interrupt it, the wait ends exactly when its time is over. -/
theorem C113_exact_partial (timeo now : Nat) (sigs : List Nat) (h : timeo < 2 ^ 31) : wait timeo now sigs = some (now + timeo) := by
  by_cases h0 : timeo = 0
  · subst h0; exact loop_zero sigs now now
  · rw [wait, loop_pos sigs timeo now now (by omega) (by omega) (by omega)]
    congr 1; omega

theorem loop_neg (sigs : List Nat) : ∀ (stamp now : Nat), waitLoop (-1) stamp now sigs = none := by
  induction sigs with
  | nil => intro stamp now; simp [waitLoop, toInt32]
  | cons d sigs ih =>
    intro stamp now
    have h : ¬ ((-1 : Int) > 0) := by omega
    have h2 : toInt32 (-1) < 0 := by simp [toInt32]
    simp only [waitLoop, if_neg h]
    rw [if_pos (Or.inl h2)]
    exact ih now (now + d)

/-- **C113**, no timer: the wait does not end by itself, however many signals come. -/
theorem C113_infinite (now : Nat) (sigs : List Nat) : wait (-1) now sigs = none := loop_neg sigs now now

/-- **C113** fails for timeouts from 2^31 ms (24.8 days): half of all of them are taken for "no timeout", and the queue sleeps past its timer for ever. -/
theorem C113_sleeps_forever (timeo now : Nat) (h : 2 ^ 31 ≤ timeo % 2 ^ 32) : wait timeo now [] = none := by
  have h0 : (timeo : Int) > 0 := by omega
  simp only [wait, waitLoop, if_pos h0]
  have : toInt32 (max ((timeo : Int) - ((now - now : Nat) : Int)) 0) < 0 := by
    have e : max ((timeo : Int) - ((now - now : Nat) : Int)) 0 = timeo := by omega
    rw [e]; simp only [toInt32]; omega
  rw [if_pos this]

/-- **C113**, the other half of the long timeouts only makes the queue wake up early. -/
theorem C113_early (timeo now : Nat) (h : timeo % 2 ^ 32 < 2 ^ 31) : wait timeo now [] = some (now + timeo % 2 ^ 32) := by
  have e : (if (timeo : Int) > 0 then max ((timeo : Int) - ((now - now : Nat) : Int)) 0 else (timeo : Int)) = timeo := by
    split <;> omega
  simp only [wait, waitLoop, e]
  have : toInt32 (timeo : Int) = ((timeo % 2 ^ 32 : Nat) : Int) := by simp only [toInt32]; omega
  rw [this, if_neg (by omega), Int.toNat_natCast]

/-! ## C114 -/

theorem carry_spec : ∀ (n : Nat) (t : Ts), t.nsec < (n + 1) * 1000000000 → (carry n t).nsec < 1000000000 ∧ (carry n t).ns = t.ns := by
  intro n
  induction n with
  | zero => intro t h; exact ⟨by simpa [carry] using h, rfl⟩
  | succ n ih =>
    intro t h
    simp only [carry]
    split
    · rename_i hc
      obtain ⟨h1, h2⟩ := ih ⟨t.sec + 1, t.nsec - 1000000000⟩ (by simp only; omega)
      refine ⟨h1, h2.trans ?_⟩
      simp only [Ts.ns]; omega
    · rename_i hc
      exact ⟨by omega, rfl⟩

/-- **C114.**  The deadline of a timed wait is exactly `ms` milliseconds after the clock reading, and a valid `struct timespec`. -/
theorem C114_deadline (now : Ts) (ms : Nat) : (deadline now ms).nsec < 1000000000 ∧ (deadline now ms).ns = now.ns + ms * 1000000 := by
  obtain ⟨h1, h2⟩ := carry_spec (now.nsec + ms % 1000 * 1000000) ⟨now.sec + ms / 1000, now.nsec + ms % 1000 * 1000000⟩ (by simp only; omega)
  refine ⟨h1, h2.trans ?_⟩
  simp only [Ts.ns]; omega

/-! ## Non-vacuity -/

example : wait 1000 50 [300, 300, 300, 300] = some 1050 := by decide +kernel
example : wait 2147483648 50 [] = none ∧ wait 4294967301 50 [] = some 55 := by decide +kernel
example : deadline ⟨100, 999000000⟩ 1500 = ⟨102, 499000000⟩ := by
  simp [deadline, carry]

end Verif.WaitTime
