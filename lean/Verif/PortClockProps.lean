import Verif.PortClockInv
/-! # C205, C206: the wall clock and the text of the time on the ports -/
namespace Verif.PortClock
open Verif.PortTime (tick TickPort)
open Verif.SysApi (store cstr pad3)

/-! ## C205: aosl_time_ms and aosl_time_sec -/

/-- aosl_time_ms and aosl_time_sec give the milliseconds and seconds since 1970 (for the next 36000 years). -/
def TellsTime (p : Port) : Prop :=
  ∀ s : Sys, s.ok = true → s.wall < 2 ^ 60 → (timeMs p s).toNat = s.wall / 1000 ∧ (timeSec p s).toNat = s.wall / 1000000

/-- The ports that ask the system for the time of day. -/
def asks (p : Port) : Prop := p ∈ [Port.linux, .darwin, .esp32, .harmony, .tw82x, .windows, .xr872]

instance (p : Port) : Decidable (asks p) := inferInstanceAs (Decidable (p ∈ _))

theorem sec_of_ms (p : Port) (s : Sys) (h : (timeMs p s).toNat = s.wall / 1000) : (timeSec p s).toNat = s.wall / 1000000 := by
  unfold timeSec
  rw [BitVec.toNat_udiv, h]
  simp
  omega

theorem gtod_nat (s : Sys) (hs : s.ok = true) (hw : s.wall < 2 ^ 60) : (gtod s).toNat = s.wall / 1000 := by
  unfold gtod
  rw [if_pos hs]
  have k : (1000 : BitVec 64).toNat = 1000 := rfl
  simp only [BitVec.toNat_add, BitVec.toNat_mul, BitVec.toNat_ofNat, k]
  omega

theorem win_nat (s : Sys) (hw : s.wall < 2 ^ 60) : (timeMs .windows s).toNat = s.wall / 1000 := by
  have e : BitVec.ofNat 64 (fileTime s.wall) - BitVec.ofNat 64 epoch100ns = BitVec.ofNat 64 (s.wall * 10) := by
    have : fileTime s.wall = s.wall * 10 + epoch100ns := by unfold fileTime epoch100ns; omega
    rw [this]
    rw [BitVec.ofNat_add, BitVec.add_sub_cancel]
  simp only [timeMs]
  rw [e, BitVec.toNat_udiv]
  have k : (10000 : BitVec 64).toNat = 10000 := rfl
  rw [k, BitVec.toNat_ofNat]
  omega

theorem tells_time_partial (p : Port) (hp : asks p) : TellsTime p := by
  intro s hs hw
  have hm : (timeMs p s).toNat = s.wall / 1000 := by
    simp only [asks, List.mem_cons, List.not_mem_nil, or_false] at hp
    rcases hp with rfl | rfl | rfl | rfl | rfl | rfl | rfl
    case inr.inr.inr.inr.inr.inl => exact win_nat s hw
    all_goals simp only [timeMs]; exact gtod_nat s hs hw
  exact ⟨hm, sec_of_ms p s hm⟩

/-- The other ports give the tick: the time of day has no influence on the answer. -/
theorem tick_ports_ignore_the_clock (p : Port) (hp : ¬ asks p) (s : Sys) (w : Nat) (ok : Bool) (cal : Nat → Option Tm) :
    timeMs p { s with wall := w, ok := ok, cal := cal } = timeMs p s ∧ timeSec p { s with wall := w, ok := ok, cal := cal } = timeSec p s := by
  have e : timeMs p { s with wall := w, ok := ok, cal := cal } = timeMs p s := by
    cases p <;> simp [asks] at hp <;> simp only [timeMs]
  exact ⟨e, by unfold timeSec; rw [e]⟩

theorem tells_time_iff (p : Port) : TellsTime p ↔ asks p := by
  refine ⟨fun h => Decidable.byContradiction fun hp => ?_, tells_time_partial p⟩
  have a := (h ⟨0, 0, true, fun _ => none⟩ rfl (by decide)).1
  have b := (h ⟨0, 10 ^ 15, true, fun _ => none⟩ rfl (by decide)).1
  have e := (tick_ports_ignore_the_clock p hp ⟨0, 0, true, fun _ => none⟩ (10 ^ 15) true (fun _ => none)).1
  rw [← e] at a
  rw [a] at b
  simp at b

/-- When gettimeofday fails the answer is 0. -/
theorem no_clock_is_zero (p : Port) (hp : asks p) (hw : p ≠ .windows) (s : Sys) (h : s.ok = false) : timeMs p s = 0 := by
  simp only [asks, List.mem_cons, List.not_mem_nil, or_false] at hp
  rcases hp with rfl | rfl | rfl | rfl | rfl | rfl | rfl
  case inr.inr.inr.inr.inr.inl => exact absurd rfl hw
  all_goals simp [timeMs, gtod, h]

/-- A clock that is not set back is not seen to go back. -/
theorem time_monotone (p : Port) (hp : asks p) (s s' : Sys) (h : s.ok = true) (h' : s'.ok = true) (hw : s.wall ≤ s'.wall) (hb : s'.wall < 2 ^ 60) :
    (timeMs p s).toNat ≤ (timeMs p s').toNat := by
  rw [(tells_time_partial p hp s h (by omega)).1, (tells_time_partial p hp s' h' hb).1]
  omega

example : asks .windows ∧ (timeMs .windows ⟨5, 1794978967042000, true, fun _ => none⟩).toNat = 1794978967042 := by
  refine ⟨by simp [asks], by decide +kernel⟩

example : ¬ asks .ac791n ∧ (timeMs .ac791n ⟨5, 1794978967042000, true, fun _ => none⟩).toNat = 50 := by
  refine ⟨by simp [asks], by decide +kernel⟩

/-! ## C206: aosl_time_str -/

/-- "yyyy-mm-dd hh:mm:ss.xxx" -/
def stamp (t : Tm) (ms : Nat) : List Nat :=
  let d (n : Nat) : Nat := '0'.toNat + n % 10
  [d (t.y / 1000), d (t.y / 100), d (t.y / 10), d t.y, '-'.toNat, d (t.mo / 10), d t.mo, '-'.toNat, d (t.d / 10), d t.d, ' '.toNat,
   d (t.h / 10), d t.h, ':'.toNat, d (t.mi / 10), d t.mi, ':'.toNat, d (t.s / 10), d t.s, '.'.toNat, d (ms / 100), d (ms / 10), d ms]

/-- A broken-down time of the years 0 to 9999. -/
structure Tm.Valid (t : Tm) : Prop where
  y : t.y < 10000
  mo : t.mo < 100
  d : t.d < 100
  h : t.h < 100
  mi : t.mi < 100
  s : t.s < 100

/-- The buffer starts with this text, closed by a NUL. -/
def Shows (m t : List Nat) : Prop := ∃ rest, m = t ++ 0 :: rest ∧ 0 ∉ t

/-- aosl_time_str writes the local date and time, cut to the buffer, and refuses a null pointer or a length of 0 without writing. -/
structure Right (p : Port) : Prop where
  writes : ∀ (s : Sys) (junk m : List Nat) (t : Tm), junk.length = 24 → s.ok = true → s.wall < 2 ^ 60 → s.cal (s.wall / 1000000) = some t → t.Valid → 0 < m.length →
    ∃ m', timeStr p s junk (some m) m.length = some (0, m') ∧ m'.length = m.length ∧ Shows m' ((stamp t (s.wall / 1000 % 1000)).take (m.length - 1))
  refuses : ∀ (s : Sys) (junk m : List Nat) (len : Int), timeStr p s junk none len = some (-1, []) ∧ timeStr p s junk (some m) 0 = some (-1, m)

theorem date_stamp (t : Tm) (h : t.Valid) (ms : Nat) (hm : ms < 1000) : dateText t ++ 46 :: pad3 ms = stamp t ms := by
  obtain ⟨h1, h2, h3, h4, h5, h6⟩ := h
  unfold dateText
  rw [pad4 _ h1, pad2 _ h2, pad2 _ h3, pad2 _ h4, pad2 _ h5, pad2 _ h6]
  simp only [pad3, stamp, List.cons_append, List.nil_append, List.append_assoc]
  have : '0'.toNat = 48 := rfl
  have : '-'.toNat = 45 := rfl
  have : ' '.toNat = 32 := rfl
  have : ':'.toNat = 58 := rfl
  have : '.'.toNat = 46 := rfl
  simp only [*]
  have e1 : t.y / 1000 % 10 = t.y / 1000 := by omega
  have e2 : t.mo / 10 % 10 = t.mo / 10 := by omega
  have e3 : t.d / 10 % 10 = t.d / 10 := by omega
  have e4 : t.h / 10 % 10 = t.h / 10 := by omega
  have e5 : t.mi / 10 % 10 = t.mi / 10 := by omega
  have e6 : t.s / 10 % 10 = t.s / 10 := by omega
  have e7 : ms / 100 % 10 = ms / 100 := by omega
  simp only [e1, e2, e3, e4, e5, e6, e7]

theorem date_len (t : Tm) (h : t.Valid) : (dateText t).length = 19 := by
  have := congrArg List.length (date_stamp t h 0 (by omega))
  simp [pad3, stamp] at this
  omega

theorem local24_date (junk : List Nat) (hj : junk.length = 24) (t : Tm) (h : t.Valid) (ms : Nat) (hm : ms < 1000) : local24 junk t ms = some (stamp t ms) := by
  have hd := date_len t h
  have s1 : store junk 0 (dateText t) = some (dateText t ++ [0] ++ junk.drop 20) := by simp [store, hj, hd]
  have s2 : store (dateText t ++ [0] ++ junk.drop 20) 19 (46 :: pad3 ms) = some (dateText t ++ (46 :: pad3 ms) ++ [0]) := by
    simp [store, hj, hd, pad3]
  have e3 : cstr (dateText t ++ (46 :: pad3 ms) ++ [0]) = dateText t ++ (46 :: pad3 ms) := by
    unfold cstr
    rw [List.append_assoc, List.takeWhile_append_of_pos (by intro c hc; simpa using date_pos t c hc)]
    simp [pad3]
  simp only [local24, s1, s2, Option.bind_eq_bind, Option.bind_some, e3]
  rw [date_stamp t h ms hm]
  rfl

theorem not_mem_take (t : List Nat) (k : Nat) (h : ∀ c ∈ t, c ≠ 0) : 0 ∉ t.take k := fun hc => h 0 (List.mem_of_mem_take hc) rfl

theorem sn_right (m t : List Nat) (h0 : 0 < m.length) (ht : ∀ c ∈ t, c ≠ 0) :
    ∃ m', sn m m.length t = some m' ∧ m'.length = m.length ∧ Shows m' (t.take (m.length - 1)) := by
  refine ⟨t.take (m.length - 1) ++ [0] ++ m.drop (min (m.length - 1) t.length + 1), ?_, ?_, ?_⟩
  · unfold sn
    rw [if_neg (by omega), if_pos (by omega)]
  · simp [List.length_take, List.length_drop]; omega
  · exact ⟨m.drop (min (m.length - 1) t.length + 1), by simp, not_mem_take t _ ht⟩

theorem win_right (m t : List Nat) (h0 : 0 < m.length) (ht : ∀ c ∈ t, c ≠ 0) :
    ∃ m', winStore m m.length t = some m' ∧ m'.length = m.length ∧ Shows m' (t.take (m.length - 1)) := by
  unfold winStore
  rw [if_pos (Nat.le_refl _)]
  refine ⟨_, rfl, ?_, ?_⟩
  · simp only [List.length_set, List.length_append, List.length_take, List.length_drop]
    split <;> simp <;> omega
  · by_cases c : t.length < m.length
    · rw [if_pos c]
      have e1 : t.take m.length = t := List.take_of_length_le (by omega)
      have e2 : t.take (m.length - 1) = t := List.take_of_length_le (by omega)
      rw [e1, e2]
      have e3 : min m.length (t.length + 1) = t.length + 1 := by omega
      rw [e3]
      by_cases c2 : t.length = m.length - 1
      · refine ⟨m.drop (t.length + 1), ?_, fun hc => ht 0 hc rfl⟩
        rw [← c2]
        simp
      · refine ⟨(m.drop (t.length + 1)).set (m.length - 1 - (t.length + 1)) 0, ?_, fun hc => ht 0 hc rfl⟩
        rw [List.append_assoc, List.set_append_right _ _ (by omega)]
        obtain ⟨k, hk⟩ : ∃ k, m.length - 1 - t.length = k + 1 := ⟨m.length - 1 - t.length - 1, by omega⟩
        rw [hk]
        simp only [List.singleton_append, List.set_cons_succ]
        have : k = m.length - 1 - (t.length + 1) := by omega
        rw [this]
    · rw [if_neg c]
      refine ⟨[], ?_, not_mem_take t _ ht⟩
      have e3 : min m.length (t.length + 1) = m.length := by omega
      rw [e3]
      simp only [List.append_nil, List.drop_length]
      have e4 : t.take m.length = t.take (m.length - 1) ++ [t[m.length - 1]'(by omega)] := by
        have h1 : m.length - 1 < t.length := by omega
        have h2 := List.take_succ_eq_append_getElem h1
        rwa [Nat.sub_add_cancel h0] at h2
      rw [e4, List.set_append_right _ _ (by simp; omega)]
      simp only [List.length_take]
      have : m.length - 1 - min (m.length - 1) t.length = 0 := by omega
      rw [this]
      rfl

/-- The ports with a calendar. -/
def dates (p : Port) : Prop := p ∈ [Port.linux, .darwin, .esp32, .harmony, .ipro7, .windows, .xr872]

instance (p : Port) : Decidable (dates p) := inferInstanceAs (Decidable (p ∈ _))

theorem text_date (p : Port) (hp : dates p) (s : Sys) (junk : List Nat) (t : Tm) (hj : junk.length = 24) (hs : s.ok = true) (hw : s.wall < 2 ^ 60)
    (hc : s.cal (s.wall / 1000000) = some t) (hv : t.Valid) : text p s junk = some (stamp t (s.wall / 1000 % 1000)) := by
  have g : ∀ q : Port, asks q → (do let t ← s.cal ((timeMs q s).toNat / 1000); local24 junk t ((timeMs q s).toNat % 1000) : Option (List Nat)) = some (stamp t (s.wall / 1000 % 1000)) := by
    intro q hq
    rw [(tells_time_partial q hq s hs hw).1]
    have : s.wall / 1000 / 1000 = s.wall / 1000000 := by omega
    rw [this, hc]
    exact local24_date junk hj t hv _ (by omega)
  simp only [dates, List.mem_cons, List.not_mem_nil, or_false] at hp
  rcases hp with rfl | rfl | rfl | rfl | rfl | rfl | rfl
  · exact g .linux (by simp [asks])
  · exact g .darwin (by simp [asks])
  · exact g .esp32 (by simp [asks])
  · exact g .harmony (by simp [asks])
  · simp only [text, hs, if_true, hc]
    have : s.wall % 1000000 / 1000 = s.wall / 1000 % 1000 := by omega
    rw [this]
    exact local24_date junk hj t hv _ (by omega)
  · simp only [text, hc, Option.map_some]
    rw [← date_stamp t hv _ (by omega), pad_3 _ (by omega)]
    simp [pad3]
  · exact g .xr872 (by simp [asks])

/-- The common path of all ports but ac791n and windows. -/
theorem timeStr_plain (p : Port) (h1 : p ≠ .ac791n) (h2 : p ≠ .windows) (s : Sys) (junk m : List Nat) (len : Int) :
    timeStr p s junk (some m) len = (if len = 0 then some (-1, m) else (text p s junk).bind fun t => (sn m (size len) t).bind fun m' => some (0, m')) := by
  cases p <;> first | rfl | exact absurd rfl h1 | exact absurd rfl h2

theorem size_nat (n : Nat) : size (n : Int) = n := by unfold size; rw [if_neg (by omega)]; simp

/-- Whatever the text, a buffer of the stated length is filled inside its bounds with the text, cut and closed. -/
theorem timeStr_text (p : Port) (s : Sys) (junk m x : List Nat) (h : text p s junk = some x) (h0 : 0 < m.length) :
    ∃ m', timeStr p s junk (some m) m.length = some (0, m') ∧ m'.length = m.length ∧ Shows m' (x.take (m.length - 1)) := by
  have hx := text_pos p s junk x h
  by_cases hw : p = .windows
  · subst hw
    obtain ⟨m', e, r⟩ := win_right m x h0 hx
    refine ⟨m', ?_, r⟩
    have hl : ¬ ((m.length : Int) ≤ 0) := by omega
    simp only [timeStr, if_neg hl, h, Option.bind_eq_bind, Option.bind_some, Int.toNat_natCast, e]
    rfl
  · obtain ⟨m', e, r⟩ := sn_right m x h0 hx
    refine ⟨m', ?_, r⟩
    by_cases ha : p = .ac791n
    · subst ha
      simp only [timeStr, h, size_nat, Option.bind_eq_bind, Option.bind_some, e]
      rfl
    · rw [timeStr_plain p ha hw, if_neg (by omega), h, size_nat]
      simp only [Option.bind_some, e]

theorem right_partial (p : Port) (hp : dates p) : Right p := by
  refine ⟨fun s junk m t hj hs hw hc hv h0 => timeStr_text p s junk m _ (text_date p hp s junk t hj hs hw hc hv) h0, fun s junk m len => ?_⟩
  simp only [dates, List.mem_cons, List.not_mem_nil, or_false] at hp
  rcases hp with rfl | rfl | rfl | rfl | rfl | rfl | rfl <;> exact ⟨rfl, rfl⟩

example : dates .linux ∧ (⟨2026, 11, 18, 5, 16, 7⟩ : Tm).Valid ∧
    timeStr .linux ⟨0, 1794978967042000, true, fun _ => some ⟨2026, 11, 18, 5, 16, 7⟩⟩ (List.replicate 24 170) (some (List.replicate 26 7)) 26 =
      some (0, "2026-11-18 05:16:07.042".toList.map Char.toNat ++ [0, 7, 7]) := by
  refine ⟨by simp [dates], ⟨by decide, by decide, by decide, by decide, by decide, by decide⟩, by decide +kernel⟩

/-- Windows, cut to 11 bytes: the date and its NUL. -/
example : timeStr .windows ⟨0, 1794978967042000, true, fun _ => some ⟨2026, 11, 18, 5, 16, 7⟩⟩ [] (some (List.replicate 11 7)) 11 =
    some (0, "2026-11-18".toList.map Char.toNat ++ [0]) := by decide +kernel

/-- On every port, whatever the clocks show: a text of digits and separators that the port produces is stored inside the buffer and closed by a NUL. -/
theorem closed_in_bounds (p : Port) (s : Sys) (junk m : List Nat) (h0 : 0 < m.length) (ht : (text p s junk).isSome) :
    ∃ m', timeStr p s junk (some m) m.length = some (0, m') ∧ m'.length = m.length ∧ 0 ∈ m' := by
  obtain ⟨x, hx⟩ := Option.isSome_iff_exists.mp ht
  obtain ⟨m', e, hl, rest, hm, _⟩ := timeStr_text p s junk m x hx h0
  exact ⟨m', e, hl, by rw [hm]; simp⟩

/-- The text exists on the ports without a calendar at all times. -/
theorem text_exists (p : Port) (hp : ¬ dates p) (s : Sys) (junk : List Nat) : (text p s junk).isSome := by
  cases p <;> simp [dates] at hp <;> simp only [text, Option.isSome_some]

/-- The other ports write the same text whatever the calendar says. -/
theorem no_date (p : Port) (hp : ¬ dates p) (s : Sys) (junk : List Nat) (cal : Nat → Option Tm) (mem : Option (List Nat)) (len : Int) :
    timeStr p { s with cal := cal } junk mem len = timeStr p s junk mem len := by
  have e : text p { s with cal := cal } junk = text p s junk := by
    cases p <;> simp [dates] at hp <;> simp only [text, timeMs, gtod, text32]
  cases p <;> simp [dates] at hp <;> cases mem <;> simp only [timeStr, e]

theorem right_iff (p : Port) : Right p ↔ dates p := by
  refine ⟨fun h => Decidable.byContradiction fun hp => ?_, right_partial p⟩
  have vA : (⟨2026, 1, 1, 1, 1, 1⟩ : Tm).Valid := ⟨by decide, by decide, by decide, by decide, by decide, by decide⟩
  have vB : (⟨3026, 1, 1, 1, 1, 1⟩ : Tm).Valid := ⟨by decide, by decide, by decide, by decide, by decide, by decide⟩
  obtain ⟨a, ha, _, ra, hma, _⟩ := h.writes ⟨0, 0, true, fun _ => some ⟨2026, 1, 1, 1, 1, 1⟩⟩ (List.replicate 24 0) [0, 0] _ (by decide) rfl (by decide) rfl vA (by decide)
  obtain ⟨b, hb, _, rb, hmb, _⟩ := h.writes ⟨0, 0, true, fun _ => some ⟨3026, 1, 1, 1, 1, 1⟩⟩ (List.replicate 24 0) [0, 0] _ (by decide) rfl (by decide) rfl vB (by decide)
  have e := no_date p hp ⟨0, 0, true, fun _ => some ⟨2026, 1, 1, 1, 1, 1⟩⟩ (List.replicate 24 0) (fun _ => some ⟨3026, 1, 1, 1, 1, 1⟩) (some [0, 0]) 2
  have e' : some ((0 : Int), b) = some (0, a) := hb.symm.trans (e.trans ha)
  have e2 : b = a := by simpa using e'
  rw [hma, hmb] at e2
  simp [stamp] at e2

/-- A number in decimal. -/
def numeral (n : Nat) : List Nat := (toString n).toList.map Char.toNat

theorem dec_numeral (n : Nat) : dec n = numeral n := by
  simp [dec, numeral, Nat.toString_eq_repr, Nat.repr]

/-- "hh:mm:ss.xxx" -/
def uptime (h mi sec ms : Nat) : List Nat :=
  let d (n : Nat) : Nat := '0'.toNat + n % 10
  [d (h / 10), d h, ':'.toNat, d (mi / 10), d mi, ':'.toNat, d (sec / 10), d sec, '.'.toNat, d (ms / 100), d (ms / 10), d ms]

/-- What the ports without a calendar write instead of the date: the value of aosl_time_ms in decimal (asr1606, bk725x, rtl8713, spreadtrum), the seconds since 1970
(tw82x), the time since the start (ac791n, for its first 100 hours); ipro7 writes the milliseconds since 1970 when the calendar fails and those since the start
when there is no time of day. -/
theorem tick_text (s : Sys) (junk : List Nat) :
    (∀ p, p = .asr1606 ∨ p = .bk725x ∨ p = .spreadtrum ∨ (∃ k, p = .rtl8713 k) → text p s junk = some (numeral (timeMs p s).toNat)) ∧
    (s.ok = true → s.wall / 1000000 < 2 ^ 32 → text .tw82x s junk = some (numeral (s.wall / 1000000))) ∧
    (s.ok = true → s.cal (s.wall / 1000000) = none → text .ipro7 s junk = some (numeral (s.wall / 1000))) ∧
    (s.ok = false → text .ipro7 s junk = some (numeral (timeMs .ipro7 s).toNat)) ∧
    (∀ h mi sec ms, h < 100 → mi < 60 → sec < 60 → ms < 1000 → s.ticks * 10 = ((h * 60 + mi) * 60 + sec) * 1000 + ms →
      text .ac791n s junk = some (uptime h mi sec ms)) := by
  have h32 : (tick .ms32 s.ticks).toNat = text32 s := by
    unfold tick text32
    rw [BitVec.toNat_ofNat]; omega
  refine ⟨?_, ?_, ?_, ?_, ?_⟩
  · rintro p (rfl | rfl | rfl | ⟨k, rfl⟩) <;> simp only [text, dec_numeral, timeMs, h32]
  · intro hs hw
    have hb : s.wall < 2 ^ 60 := by omega
    have := (tells_time_partial .tw82x (by simp [asks]) s hs hb).1
    simp only [text, this, dec_numeral]
    have e : s.wall / 1000 / 1000 % 2 ^ 32 = s.wall / 1000000 := by omega
    rw [e]
  · intro hs hc
    simp only [text, hs, if_true, hc, dec_numeral]
    have e : s.wall / 1000000 * 1000 + s.wall % 1000000 / 1000 = s.wall / 1000 := by omega
    rw [e]
  · intro hs
    simp only [text, hs, dec_numeral, timeMs, h32]
    rfl
  · intro h mi sec ms hh hmi hsec hms ht
    have htm : (timeMs .ac791n s).toNat = s.ticks * 10 := by
      have hlt : s.ticks < 36000000 := by omega
      clear ht
      have m32 : s.ticks % 2 ^ 32 = s.ticks := Nat.mod_eq_of_lt (by omega)
      have k : (BitVec.ofNat 64 10).toNat = 10 := rfl
      simp only [timeMs, tick, BitVec.toNat_mul, BitVec.toNat_ofNat, k, m32]
      omega
    simp only [text, uptimeText, htm, ht]
    have e1 : (((h * 60 + mi) * 60 + sec) * 1000 + ms) / 1000 % 2 ^ 32 = (h * 60 + mi) * 60 + sec := by omega
    have e2 : (((h * 60 + mi) * 60 + sec) * 1000 + ms) % 1000 = ms := by omega
    rw [e1, e2]
    have e3 : ((h * 60 + mi) * 60 + sec) / 60 / 60 = h := by omega
    have e4 : ((h * 60 + mi) * 60 + sec) / 60 % 60 = mi := by omega
    have e5 : ((h * 60 + mi) * 60 + sec) % 60 = sec := by omega
    rw [e3, e4, e5, pad2 h hh, pad2 mi (by omega), pad2 sec (by omega), pad_3 ms hms]
    have d1 : h / 10 % 10 = h / 10 := by omega
    have d2 : mi / 10 % 10 = mi / 10 := by omega
    have d3 : sec / 10 % 10 = sec / 10 := by omega
    have d4 : ms / 100 % 10 = ms / 100 := by omega
    simp only [uptime, d1, d2, d3, d4, List.cons_append, List.nil_append]
    rfl

/-- aosl_time_ms on the ports that count ticks: milliseconds since the start, 10 and 5 per tick on ac791n and asr1606, modulo 2^32 ticks. -/
theorem tick_value (s : Sys) :
    (timeMs .ac791n s).toNat = s.ticks % 2 ^ 32 * 10 ∧ (timeMs .asr1606 s).toNat = s.ticks % 2 ^ 32 * 5 ∧
    (∀ p, p = .bk725x ∨ p = .ipro7 ∨ p = .spreadtrum → (timeMs p s).toNat = s.ticks % 2 ^ 32) ∧
    (∀ k, (timeMs (.rtl8713 k) s).toNat = s.ticks % 2 ^ 32 * k % 2 ^ 32) := by
  refine ⟨?_, ?_, ?_, ?_⟩
  · have k : (BitVec.ofNat 64 10).toNat = 10 := rfl
    simp only [timeMs, tick, BitVec.toNat_mul, BitVec.toNat_ofNat, k]
    omega
  · have k : (BitVec.ofNat 64 5).toNat = 5 := rfl
    simp only [timeMs, tick, BitVec.toNat_mul, BitVec.toNat_ofNat, k]
    omega
  · rintro p (rfl | rfl | rfl) <;> simp only [timeMs, tick, BitVec.toNat_ofNat] <;> omega
  · intro k
    simp only [timeMs, tick, BitVec.toNat_ofNat]
    generalize s.ticks % 2 ^ 32 * k = x
    omega

/-- tick_text: ac791n after 1 hour, 2 minutes, 3.04 seconds; tw82x in 2026 -/
example : text .ac791n ⟨372304, 0, true, fun _ => none⟩ [] = some (uptime 1 2 3 40) ∧
    text .tw82x ⟨0, 1794978967042000, true, fun _ => none⟩ [] = some ("1794978967".toList.map Char.toNat) := by
  constructor <;> decide +kernel

/-- ac791n stores through a null pointer. -/
theorem ac791n_null (s : Sys) (junk : List Nat) (len : Int) (h : len ≠ 0) : timeStr .ac791n s junk none len = none := by
  simp [timeStr, h]

/-- ac791n shows the hours since the start, of which there may be more than 24. -/
example : timeStr .ac791n ⟨9000000, 1794978967042000, true, fun _ => none⟩ [] (some (List.replicate 16 7)) 16 =
    some (0, "25:00:00.000".toList.map Char.toNat ++ [0, 7, 7, 7]) := by decide +kernel

/-- A negative length is taken for a very large one: a buffer shorter than the text is overrun.  Only windows refuses it. -/
theorem negative_length (p : Port) (hp : dates p) (hw : p ≠ .windows) (s : Sys) (junk m : List Nat) (t : Tm) (len : Int) (hj : junk.length = 24) (hs : s.ok = true) (hb : s.wall < 2 ^ 60)
    (hc : s.cal (s.wall / 1000000) = some t) (hv : t.Valid) (hlen : -2 ^ 31 ≤ len ∧ len < 0) (hm : m.length < 24) : timeStr p s junk (some m) len = none := by
  have ha : p ≠ .ac791n := by rintro rfl; simp [dates] at hp
  rw [timeStr_plain p ha hw, if_neg (by omega), text_date p hp s junk t hj hs hb hc hv]
  have hz : 24 ≤ size len := by unfold size; rw [if_pos (by omega)]; omega
  have hl : (stamp t (s.wall / 1000 % 1000)).length = 23 := rfl
  have : sn m (size len) (stamp t (s.wall / 1000 % 1000)) = none := by
    unfold sn
    rw [if_neg (by omega), if_neg (by rw [hl]; omega)]
  simp only [Option.bind_some, this, Option.bind_none]

theorem windows_negative_length (s : Sys) (junk m : List Nat) (len : Int) (h : len ≤ 0) : timeStr .windows s junk (some m) len = some (-1, m) := by
  simp [timeStr, h]

/-- From the year 10000 on the last digit of the seconds is lost: two moments a second apart give the same text. -/
theorem year_10000 : ∃ (s s' : Sys) (junk : List Nat), s.wall + 1000000 = s'.wall ∧ text .linux s junk = text .linux s' junk ∧
    text .linux s junk = some ("10000-01-01 00:00:0.000".toList.map Char.toNat) := by
  refine ⟨⟨0, 253402300800000000, true, fun _ => some ⟨10000, 1, 1, 0, 0, 0⟩⟩, ⟨0, 253402300801000000, true, fun _ => some ⟨10000, 1, 1, 0, 0, 1⟩⟩, List.replicate 24 0, rfl, ?_, ?_⟩
  all_goals decide +kernel

end Verif.PortClock
