import Verif.PortTime
/-
  C175: stacks; C176: time-outs and sleeping; C177: the tick and timers.
-/
namespace Verif.PortTime

/-! ## C175 -/

/-- C175 (where it holds). windows, asr1606 and tw82x give the stack asked for; ac791n at least that, up to the last word of 4 bytes. -/
theorem C175_asked (s : Nat) : stackOf .asked s = s ∧ s < stackOf .ac791n s + 4 ∧ (s % 4 = 0 → s ≤ stackOf .ac791n s) := by
  refine ⟨rfl, ?_, ?_⟩ <;> simp only [stackOf] <;> split <;> omega

/-- C175 (esp32, rtl8713, xr872), exactly: a thread gets the stack asked for, up to the last stack word, if and only if less than 65536 words were asked for. -/
theorem C175_rtos_exact (k s : Nat) (hk : 0 < k) : (s < stackOf (.rtos k) s + k ∧ stackOf (.rtos k) s ≤ s) ↔ s < 65536 * k := by
  simp only [stackOf]
  have h1 := Nat.div_add_mod s k
  have h2 := Nat.mod_lt s hk
  constructor
  · rintro ⟨h, -⟩
    apply Decidable.byContradiction
    intro hn
    have hd : 65536 ≤ s / k := (Nat.le_div_iff_mul_le hk).2 (by omega)
    have hm : s / k % 65536 + 65536 ≤ s / k := by
      have := Nat.div_add_mod (s / k) 65536
      have : 1 ≤ s / k / 65536 := (Nat.le_div_iff_mul_le (by omega)).2 (by omega)
      omega
    have := Nat.mul_le_mul_right k hm
    rw [Nat.add_mul] at this
    have h3 : s / k * k ≤ s := Nat.div_mul_le_self s k
    have h4 : 2 * k ≤ 65536 * k := Nat.mul_le_mul_right k (by omega)
    omega
  · intro h
    have hd : s / k < 65536 := (Nat.div_lt_iff_lt_mul hk).2 h
    rw [Nat.mod_eq_of_lt hd]
    have h3 : s / k * k ≤ s := Nat.div_mul_le_self s k
    rw [Nat.mul_comm k] at h1
    omega

/-- C175 is false of the code (esp32, rtl8713, xr872): 65536 words, or a multiple, are no stack at all (esp32, where the word is a byte: 64 KB), and no thread ever gets
    65536 words. -/
theorem C175_cut (k m : Nat) (hk : 0 < k) (s : Nat) : stackOf (.rtos k) (65536 * k * m) = 0 ∧ stackOf (.rtos k) s < 65536 * k := by
  constructor
  · simp only [stackOf]
    rw [show 65536 * k * m = k * (65536 * m) by rw [Nat.mul_comm 65536 k, Nat.mul_assoc], Nat.mul_div_cancel_left _ hk]
    simp
  · simp only [stackOf]
    exact Nat.mul_lt_mul_of_pos_right (by omega) hk

example : stackOf (.rtos 1) 65536 = 0 ∧ stackOf (.rtos 1) 70000 = 4464 ∧ stackOf (.rtos 4) 16384 = 16384 := by decide

/-- C175 is false of the code (bk725x, ipro7, spreadtrum): the size is ignored; a thread that asks for more gets less. bk725x gives less than the default. -/
theorem C175_fixed (b s : Nat) : (stackOf (.fixed b) s < s ↔ b < s) ∧ stackOf (.fixed (12 * 1024)) (wanted 0) < wanted 0 := by
  refine ⟨Iff.rfl, by decide⟩

/-! ## C176 -/

/-- C176 (windows, partial): a time-out from 0 to 49.7 days is kept; a negative one is no time-out. -/
theorem C176_windows_partial (ms : Int) : (ms < 0 → winWait ms = .forever) ∧ (0 ≤ ms → ms < 2 ^ 32 - 1 → winWait ms = .units ms.toNat) := by
  constructor
  · intro h; simp [winWait, h]
  · intro h0 h1
    have h2 : ms.toNat % 2 ^ 32 = ms.toNat := Nat.mod_eq_of_lt (by omega)
    simp only [winWait, h2]
    rw [if_neg (by omega), if_neg (by omega)]

example : (0 : Int) ≤ 1500 ∧ (1500 : Int) < 2 ^ 32 - 1 ∧ winWait 1500 = .units 1500 := by decide

/-- C176 is false of the code (windows): a time-out of 2^32 - 1 ms never comes, one of 2^32 ms comes at once; so do all those that are equal to them modulo 2^32. -/
theorem C176_windows_cut (k : Nat) : winWait (2 ^ 32 - 1 + 2 ^ 32 * k) = .forever ∧ winWait (2 ^ 32 * (k + 1)) = .units 0 := by
  have e1 : (2 ^ 32 - 1 + 2 ^ 32 * (k : Int)).toNat = 2 ^ 32 - 1 + 2 ^ 32 * k := by omega
  have e2 : (2 ^ 32 * ((k : Int) + 1)).toNat = 2 ^ 32 * (k + 1) := by omega
  constructor
  · simp only [winWait, e1]
    rw [if_neg (by omega), if_pos (by omega)]
  · simp only [winWait, e2]
    rw [if_neg (by omega), if_neg (by omega), show 2 ^ 32 * (k + 1) % 2 ^ 32 = 0 by omega]

/-- C176 (rtl8713, xr872, partial): while `ms * hz` fits into 32 bits the ticks are those that fit into the time asked for, but at least one unless 0 was asked for. -/
theorem C176_rtos_partial (hz : Nat) (ms : Nat) (hhz : 0 < hz) (h : ms * hz < 2 ^ 32) :
    rtosWait hz ms = .units (if ms * hz < 1000 then (if ms = 0 then 0 else 1) else ms * hz / 1000) := by
  have hm : ms < 2 ^ 32 := Nat.lt_of_le_of_lt (Nat.le_mul_of_pos_right ms hhz) h
  have e : ((ms : Int)).toNat = ms := by omega
  simp only [rtosWait, e]
  rw [if_neg (by omega), Nat.mod_eq_of_lt hm, Nat.mod_eq_of_lt h]
  congr 1
  by_cases h0 : ms = 0
  · subst h0; simp
  · by_cases h1 : ms * hz < 1000
    · have : ms * hz / 1000 = 0 := by omega
      simp [this, h1, h0]
    · have : ¬ ms * hz / 1000 = 0 := by omega
      simp [this, h1]

example : (2500 : Nat) * 1000 < 2 ^ 32 ∧ rtosWait 1000 2500 = .units 2500 ∧ rtosWait 100 2505 = .units 250 ∧ rtosWait 100 3 = .units 1 := by decide

/-- C176 is false of the code (rtl8713, xr872): with 1000 ticks per second a time-out of 4294968 ms (71.6 minutes) is over after one tick; every longer one, up to the largest
    of 24.8 days, is over before 71.6 minutes. -/
theorem C176_rtos_cut (ms : Nat) : rtosWait 1000 4294968 = .units 1 ∧ ∃ n, rtosWait 1000 ms = .units n ∧ n < 4294968 := by
  refine ⟨by decide, ?_⟩
  refine ⟨_, by simp only [rtosWait]; rw [if_neg (by omega)], ?_⟩
  split <;> omega

/-- C176 (spreadtrum): every positive time-out is kept, 0 is 1 ms, a negative one is none (intptr_t has 32 bits). -/
theorem C176_spreadtrum (ms : Int) (h : ms < 2 ^ 31) : sprdWait ms = if ms < 0 then .forever else if ms = 0 then .units 1 else .units ms.toNat := by
  simp only [sprdWait]
  split
  · rfl
  · split
    · rfl
    · rw [Nat.mod_eq_of_lt (by omega)]

example : sprdWait 1500 = .units 1500 ∧ sprdWait 0 = .units 1 := by decide

/-- C176 (ac791n semaphores): a positive time-out is rounded down to 10 ms, but not to 0. -/
theorem C176_ac791n (ms : Nat) (h : 0 < ms) : acWait ms = .units (if ms < 10 then 1 else ms / 10) := by
  have e : ((ms : Int)).tdiv 10 = ((ms / 10 : Nat) : Int) := by
    rw [Int.tdiv_eq_ediv_of_nonneg (by omega)]; omega
  simp only [acWait, e]
  by_cases h1 : ms < 10
  · have : ms / 10 = 0 := by omega
    rw [this]; simp [h1, h]
  · have h2 : ¬ ms / 10 = 0 := by omega
    have h3 : ¬ ((ms / 10 : Nat) : Int) = 0 := by omega
    rw [if_neg (by omega : ¬ (((ms / 10 : Nat) : Int) = 0 ∧ (0 : Int) < ms)), if_neg h3, if_neg (by omega), if_neg h1]
    congr 1

/-- C176 is false of the code (ac791n semaphores): with the time-out 0 the wait is without limit, and so it is from -9 on; below, the system gets a negative number. -/
theorem C176_ac791n_zero (ms : Int) : (-10 < ms → ms ≤ 0 → acWait ms = .forever) ∧ (ms ≤ -10 → acWait ms = .undefined) := by
  constructor
  · intro h1 h2
    have e : ms.tdiv 10 = 0 := by
      obtain ⟨n, rfl⟩ : ∃ n : Nat, ms = -(n : Int) := ⟨ms.natAbs, by omega⟩
      rw [Int.neg_tdiv, Int.tdiv_eq_ediv_of_nonneg (by omega)]; omega
    simp [acWait, e]; omega
  · intro h
    have e : ms.tdiv 10 < 0 := by
      obtain ⟨n, rfl⟩ : ∃ n : Nat, ms = -(n : Int) := ⟨ms.natAbs, by omega⟩
      rw [Int.neg_tdiv, Int.tdiv_eq_ediv_of_nonneg (by omega)]; omega
    simp only [acWait]
    rw [if_neg (by omega : ¬ (ms.tdiv 10 = 0 ∧ 0 < ms)), if_neg (by omega), if_pos e]

/-- C176 (pthread ports): for a time-out of at least 0 the deadline is exactly that much later, and accepted. -/
theorem C176_deadline (sec nsec ms : Int) (h0 : 0 ≤ nsec) (h1 : nsec < 1000000000) (h : 0 ≤ ms) :
    (deadline sec nsec ms).1 * 1000000000 + (deadline sec nsec ms).2 = sec * 1000000000 + nsec + ms * 1000000 ∧ accepted (deadline sec nsec ms) := by
  have e1 : ms.tdiv 1000 = ms / 1000 := Int.tdiv_eq_ediv_of_nonneg h
  have e2 : ms.tmod 1000 = ms % 1000 := Int.tmod_eq_emod_of_nonneg h
  simp only [deadline, accepted, e1, e2]
  split <;> (refine ⟨?_, ?_, ?_⟩ <;> omega)

example : deadline 5 900000000 1250 = (7, 150000000) := by decide

/-- … and exactly the negative time-outs that reach below the present second in their part of a second are refused: the others are over at once. A negative time-out is
    no endless wait on these ports. -/
theorem C176_negative (sec nsec ms : Int) (h0 : 0 ≤ nsec) (h1 : nsec < 1000000000) (h : ms < 0) :
    (accepted (deadline sec nsec ms) ↔ -(ms.tmod 1000) * 1000000 ≤ nsec) ∧
    (deadline sec nsec ms).1 * 1000000000 + (deadline sec nsec ms).2 < sec * 1000000000 + nsec := by
  have h2 : ms.tmod 1000 ≤ 0 := by
    obtain ⟨n, rfl⟩ : ∃ n : Nat, ms = -(n : Int) := ⟨ms.natAbs, by omega⟩
    rw [Int.neg_tmod, Int.tmod_eq_emod_of_nonneg (by omega)]; omega
  have h3 := Int.tmod_add_mul_tdiv ms 1000
  simp only [deadline, accepted]
  rw [if_neg (by omega)]
  constructor
  · constructor <;> omega
  · omega

example : ¬ accepted (deadline 5 100 (-1)) ∧ accepted (deadline 5 100 (-1000)) := by
  constructor <;> simp [accepted, deadline]

/-- C176 (real-time clock, partial): a wait whose deadline is on the wall clock (aosl_hal_sem_timedwait of linux; the condition variables of esp32, bk725x, ipro7, darwin) lasts
    as long as asked for if nobody sets the clock. -/
theorem C176_realtime_partial (clock : Nat → Int) (h : ∀ t, clock t = clock 0 + t) (ms t : Nat) : over clock (clock 0 + ms) t ↔ ms ≤ t := by
  constructor
  · rintro ⟨u, hu, hd⟩
    rw [h u] at hd; omega
  · intro ht
    exact ⟨ms, ht, by rw [h ms]; omega⟩

example : ∀ t : Nat, (fun n : Nat => (1000 : Int) + n) t = (fun n : Nat => (1000 : Int) + n) 0 + t := by intro t; simp

/-- C176 is false of the code on these ports: the clock is set back by `d` ms during the wait, which then lasts `d` ms longer; or forward, and it is over at once. -/
theorem C176_realtime_set (ms d : Nat) (h : 0 < ms) : ∃ clock : Nat → Int,
    (∀ t, over clock (clock 0 + ms) t ↔ ms + d ≤ t) ∧ ∃ clock' : Nat → Int, over clock' (clock' 0 + ms) 1 := by
  refine ⟨fun t => if t = 0 then 0 else t - d, ?_, fun t => if t = 0 then 0 else ms, 1, by omega, by simp⟩
  intro t
  constructor
  · rintro ⟨u, hu, hd⟩
    simp only [if_true] at hd
    split at hd <;> omega
  · intro ht
    refine ⟨ms + d, ht, ?_⟩
    simp only [if_true]
    rw [if_neg (by omega)]
    omega

/-- C176 (sleeping, rtl8713): rounded to the nearest tick: up to half a tick short, and below half a tick there is no sleep. -/
theorem C176_sleep_rtl (p ms : Nat) (hp : 0 < p) (hm : 0 < ms) (h : ms + p / 2 < 2 ^ 32) :
    rtlSleep p ms * p ≤ ms + p / 2 ∧ ms + p / 2 < rtlSleep p ms * p + p ∧ (ms + p / 2 < p → rtlSleep p ms = 0) := by
  have e : rtlSleep p ms = (ms + p / 2) / p := by
    simp only [rtlSleep]
    rw [if_neg (by omega), Nat.mod_eq_of_lt (Nat.lt_of_le_of_lt (Nat.div_le_self _ _) h)]
  rw [e]
  have h1 := Nat.div_add_mod (ms + p / 2) p
  have h2 := Nat.mod_lt (ms + p / 2) hp
  rw [Nat.mul_comm] at h1
  exact ⟨by omega, by omega, fun h => Nat.div_eq_of_lt h⟩

example : rtlSleep 10 4 = 0 ∧ rtlSleep 10 14 = 1 ∧ rtlSleep 1 7 = 7 := by decide

/-- C176 (sleeping, ac791n): rounded down to 10 ms, but at least 10 ms. -/
theorem C176_sleep_ac (ms : Nat) (h : ms < 10 * 2 ^ 32) : acSleep ms = if ms < 10 then 1 else ms / 10 := by
  simp only [acSleep]
  by_cases h0 : ms = 0
  · subst h0; decide
  · rw [if_neg h0]
    have : ms / 10 % 2 ^ 32 = ms / 10 := Nat.mod_eq_of_lt (by omega)
    rw [this]
    by_cases h1 : ms < 10
    · rw [if_pos (by omega), if_pos h1]
    · rw [if_neg (by omega), if_neg h1]

/-- C176 (sleeping, windows): exact below 49.7 days; 2^32 - 1 is for ever, 2^32 no sleep. -/
theorem C176_sleep_windows (ms : Nat) : (0 < ms → ms < 2 ^ 32 - 1 → winSleep ms = .units ms) ∧ winSleep (2 ^ 32 - 1) = .forever ∧ winSleep (2 ^ 32) = .units 0 := by
  refine ⟨?_, by decide, by decide⟩
  intro h0 h1
  have e : (if ms = 0 then 1 else ms) % 2 ^ 32 = ms := by rw [if_neg (by omega)]; exact Nat.mod_eq_of_lt (by omega)
  simp only [winSleep, e]
  rw [if_neg (by omega)]

/-! ## C177 -/

/-- Up to here the tick is right. -/
def limit : TickPort → Nat
  | .ms32 => 2 ^ 32
  | .rtl _ => 2 ^ 32
  | .wide p => 2 ^ 32 * p
  | .xr _ => 2 ^ 31
  | .ms64 => 2 ^ 62

theorem tick_small (pt : TickPort) (T : Nat) (hp : 0 < pt.period) (hp2 : pt.period ≤ 1000) (h : T * pt.period < limit pt) : (tick pt T).toNat = T * pt.period := by
  cases pt with
  | ms32 =>
    simp only [TickPort.period, limit, Nat.mul_one] at *
    simp only [tick, BitVec.toNat_ofNat, Nat.mod_eq_of_lt h]; omega
  | rtl p =>
    simp only [TickPort.period, limit] at *
    have hT : T < 2 ^ 32 := Nat.lt_of_le_of_lt (Nat.le_mul_of_pos_right T hp) h
    simp only [tick, BitVec.toNat_ofNat, Nat.mod_eq_of_lt hT, Nat.mod_eq_of_lt h]; omega
  | wide p =>
    simp only [TickPort.period, limit] at *
    have hT : T < 2 ^ 32 := Nat.lt_of_mul_lt_mul_right h
    have hb : T * p < 2 ^ 64 := Nat.lt_of_lt_of_le h (Nat.le_trans (Nat.mul_le_mul_left _ hp2) (by decide))
    simp only [tick, BitVec.toNat_mul, BitVec.toNat_ofNat, Nat.mod_eq_of_lt hT]
    rw [Nat.mod_eq_of_lt (show T < 2 ^ 64 by omega), Nat.mod_eq_of_lt (show p < 2 ^ 64 by omega), Nat.mod_eq_of_lt hb]
  | xr p =>
    simp only [TickPort.period, limit] at *
    have hT : T < 2 ^ 32 := by have := Nat.le_mul_of_pos_right T hp; omega
    have hs : signed32 (T % 2 ^ 32 * p) = ((T * p : Nat) : Int) := by
      simp only [signed32]
      rw [Nat.mod_eq_of_lt hT, Nat.mod_eq_of_lt (show T * p < 2 ^ 32 by omega), if_pos h]
    simp only [tick, hs]
    generalize T * p = m at h
    have e1 : ((m : Nat) : Int).tdiv 1000 = ((m / 1000 : Nat) : Int) := by rw [Int.tdiv_eq_ediv_of_nonneg (by omega)]; omega
    have e2 : (((m : Nat) : Int).tmod 1000 * 1000000).tdiv 1000000 = ((m % 1000 : Nat) : Int) := by
      rw [Int.mul_tdiv_cancel _ (by omega), Int.tmod_eq_emod_of_nonneg (by omega)]; omega
    rw [e1, e2]
    simp only [u64, BitVec.ofInt_natCast, BitVec.toNat_add, BitVec.toNat_mul, BitVec.toNat_ofNat, show (1000 : BitVec 64).toNat = 1000 from rfl]
    omega
  | ms64 =>
    simp only [TickPort.period, limit, Nat.mul_one] at *
    simp only [tick, BitVec.toNat_ofNat]; omega

/-- C177 (partial): up to its limit (24.8 days on xr872, 49.7 days with 32-bit milliseconds, 248 or 497 days on asr1606 and ac791n, for ever on windows) the tick is the time since
    the start: it never goes back and runs at the right speed. -/
theorem C177_exact_partial (pt : TickPort) (T : Nat) (hp : 0 < pt.period) (hp2 : pt.period ≤ 1000) (h : T * pt.period < limit pt) :
    (tick pt T).toNat = T * pt.period := tick_small pt T hp hp2 h

example : (tick (.xr 10) 12345).toNat = 123450 ∧ 0 < (TickPort.xr 10).period ∧ 12345 * (TickPort.xr 10).period < limit (.xr 10) := by decide

theorem due_iff {a b : BitVec 64} (ha : a.toNat < 2 ^ 63) (hb : b.toNat < 2 ^ 63) : due a b ↔ b.toNat ≤ a.toNat := by
  simp only [due, BitVec.toInt_eq_toNat_cond, BitVec.toNat_sub]
  split <;> omega

/-- C177 (timers, partial): within the limit a timer of `i` ms fires exactly when `i` ms have passed. -/
theorem C177_timer_partial (pt : TickPort) (T T' i : Nat) (hp : 0 < pt.period) (hp2 : pt.period ≤ 1000) (h : T * pt.period < limit pt) (h' : T' * pt.period < limit pt)
    (hi : i < 2 ^ 62) : due (tick pt T') (expiry (tick pt T) i) ↔ T * pt.period + i ≤ T' * pt.period := by
  have hl : limit pt ≤ 2 ^ 62 := by
    cases pt <;> simp only [limit, TickPort.period] at * <;> omega
  have e1 := tick_small pt T hp hp2 h
  have e2 := tick_small pt T' hp hp2 h'
  have e3 : (expiry (tick pt T) i).toNat = T * pt.period + i := by
    simp only [expiry, BitVec.toNat_add, BitVec.toNat_ofNat, e1]
    omega
  rw [due_iff (by omega) (by omega), e2, e3]

example : due (tick .ms32 5000) (expiry (tick .ms32 1000) 4000) ∧ ¬ due (tick .ms32 4999) (expiry (tick .ms32 1000) 4000) := by
  constructor <;> simp [due, tick, expiry]

/-- C177 is false of the code: at the limit the tick goes back to 0 (on xr872 to a number that counts as negative), and it repeats itself from then on. -/
theorem C177_wraps (T : Nat) : tick .ms32 (T + 2 ^ 32) = tick .ms32 T ∧ tick (.wide 5) (T + 2 ^ 32) = tick (.wide 5) T ∧ tick (.wide 10) (T + 2 ^ 32) = tick (.wide 10) T ∧
    (∀ p, tick (.rtl p) (T + 2 ^ 32) = tick (.rtl p) T ∧ tick (.xr p) (T + 2 ^ 32) = tick (.xr p) T) ∧
    (tick .ms32 (2 ^ 32 - 1)).toNat = 2 ^ 32 - 1 ∧ (tick .ms32 (2 ^ 32)).toNat = 0 ∧ (tick (.xr 1) (2 ^ 31 - 1)).toInt = 2 ^ 31 - 1 ∧ (tick (.xr 1) (2 ^ 31)).toInt = -2 ^ 31 := by
  refine ⟨?_, ?_, ?_, ?_, by decide, by decide, by decide, by decide⟩
  · simp [tick]
  · simp [tick]
  · simp [tick]
  · intro p; simp [tick]

/-- C177 is false of the code (32-bit milliseconds: bk725x, spreadtrum, ipro7; rtl8713): a timer whose time lies behind the limit never fires. With an interval of `i` ms every timer made
    in the last `i` ms before the limit is dead. -/
theorem C177_never_32 (now i : Nat) (hn : now < 2 ^ 32) (hi : i < 2 ^ 62) (h : 2 ^ 32 ≤ now + i) (T' : Nat) :
    (∀ T, (tick .ms32 T).toNat = now → ¬ due (tick .ms32 T') (expiry (tick .ms32 T) i)) ∧
    ∀ p T, (tick (.rtl p) T).toNat = now → ¬ due (tick (.rtl p) T') (expiry (tick (.rtl p) T) i) := by
  constructor
  · intro T hT hd
    have e : (expiry (tick .ms32 T) i).toNat = now + i := by
      simp only [expiry, BitVec.toNat_add, BitVec.toNat_ofNat, hT]; omega
    have hb : (tick .ms32 T').toNat < 2 ^ 32 := by
      simp only [tick, BitVec.toNat_ofNat]; omega
    rw [due_iff (by omega) (by omega), e] at hd
    omega
  · intro p T hT hd
    have e : (expiry (tick (.rtl p) T) i).toNat = now + i := by
      simp only [expiry, BitVec.toNat_add, BitVec.toNat_ofNat, hT]; omega
    have hb : (tick (.rtl p) T').toNat < 2 ^ 32 := by
      have : T' % 2 ^ 32 * p % 2 ^ 32 < 2 ^ 32 := Nat.mod_lt _ (by decide)
      simp only [tick, BitVec.toNat_ofNat]; omega
    rw [due_iff (by omega) (by omega), e] at hd
    omega

/-- The timer made at `T = 2^32 - 10` with an interval of 100 ms. -/
example : (tick .ms32 (2 ^ 32 - 10)).toNat = 2 ^ 32 - 10 ∧ 2 ^ 32 ≤ (2 ^ 32 - 10) + 100 := by decide

theorem xr_range (p T : Nat) : ∃ m : Int, -2 ^ 31 ≤ m ∧ m < 2 ^ 31 ∧ tick (.xr p) T = BitVec.ofInt 64 m := by
  refine ⟨signed32 (T % 2 ^ 32 * p), ?_, ?_, ?_⟩
  · simp only [signed32]; split <;> omega
  · simp only [signed32]; split <;> omega
  · simp only [tick, u64]
    generalize signed32 (T % 2 ^ 32 * p) = m
    rw [Int.mul_tdiv_cancel _ (by omega), show (1000 : BitVec 64) = BitVec.ofInt 64 1000 by decide, ← BitVec.ofInt_mul, ← BitVec.ofInt_add]
    congr 1
    have := Int.tmod_add_mul_tdiv m 1000
    omega

/-- C177 is false of the code (xr872): a timer whose time lies behind 2^31 ms (24.8 days) never fires. -/
theorem C177_never_xr872 (p now i : Nat) (hn : now < 2 ^ 31) (hi : i < 2 ^ 62) (h : 2 ^ 31 ≤ now + i) (T T' : Nat) (hT : (tick (.xr p) T).toNat = now) :
    ¬ due (tick (.xr p) T') (expiry (tick (.xr p) T) i) := by
  obtain ⟨m, h1, h2, e⟩ := xr_range p T'
  have e3 : expiry (tick (.xr p) T) i = BitVec.ofInt 64 ((now + i : Nat) : Int) := by
    apply BitVec.eq_of_toNat_eq
    simp only [expiry, BitVec.toNat_add, BitVec.toNat_ofNat, hT, BitVec.ofInt_natCast]; omega
  rw [e, e3]
  intro hd
  simp only [due] at hd
  rw [BitVec.toInt_sub, BitVec.toInt_ofInt, BitVec.toInt_ofInt] at hd
  have f1 : m.bmod (2 ^ 64) = m := Int.bmod_eq_of_le (by omega) (by omega)
  have f2 : (((now + i : Nat) : Int)).bmod (2 ^ 64) = ((now + i : Nat) : Int) := Int.bmod_eq_of_le (by omega) (by omega)
  rw [f1, f2, Int.bmod_eq_of_le (by omega) (by omega)] at hd
  omega

example : (tick (.xr 1) (2 ^ 31 - 10)).toNat = 2 ^ 31 - 10 ∧ 2 ^ 31 ≤ (2 ^ 31 - 10) + 100 := by decide

end Verif.PortTime
