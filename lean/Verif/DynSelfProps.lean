import Verif.DynSelf
import Verif.DynArrayProps

/-!
  C218: a part of a dynamic array, byte buffer or string can be appended or assigned to it.  The
  specification of "as if the part had been copied out first" is the operation of C25/C26 with the part
  as a value.
-/
namespace Verif.DynSelf
open Verif.DynArray Verif.DynArray.Spec

variable {α : Type}

/-- The `n` elements from `off` on. -/
def part (xs : List α) (off n : Nat) : List α := (xs.drop off).take n

theorem part_length {xs : List α} {off n : Nat} (h : off + n ≤ xs.length) : (part xs off n).length = n := by
  simp [part]; omega

theorem wr_frame {s s' : St α} {q : Option Nat} {off : Nat} {xs : List (Option α)} (h : wr s q off xs = some s') :
    s'.arr = s.arr ∧ ∀ r, q ≠ some r → s'.heap r = s.heap r := by
  unfold wr at h
  cases q with
  | none => cases h
  | some p =>
    simp only [Option.bind_some] at h
    cases hb : s.heap p with
    | none => rw [hb] at h; cases h
    | some b =>
      rw [hb] at h
      simp only [Option.bind_some] at h
      split at h
      · cases h
        refine ⟨rfl, fun r hr => ?_⟩
        have : r ≠ p := fun e => hr (by rw [e])
        simp [St.setHeap, this]
      · cases h

theorem release_frame {s s' : St α} {p : Nat} (h : release s (some p) = some s') :
    s'.arr = s.arr ∧ s'.heap p = none ∧ ∀ r, r ≠ p → s'.heap r = s.heap r := by
  unfold release at h
  simp only [Option.bind_some] at h
  split at h
  · cases h
    exact ⟨rfl, by simp [St.setHeap], fun r hr => by simp [St.setHeap, hr]⟩
  · cases h

/-- memory other than the array's own block is left alone by a reallocation; the own block goes -/
theorem reserve_heap {s s1 : St α} {ab : Contents α} (h : R s ab) {k i t : Nat} {oom : Bool}
    (hr : reserve k s i t oom = some (some s1)) (p : Nat) (hp : s.heap p ≠ none) :
    (Owns s i p → (s.arr i).allocated < grow k (s.arr i).allocated t → s1.heap p = none) ∧
    (¬ Owns s i p → s1.heap p = s.heap p) ∧
    (¬ (s.arr i).allocated < grow k (s.arr i).allocated t → s1 = s) ∧
    (0 < (s1.arr i).allocated → ¬ Owns s i p → (s1.arr i).ptr ≠ some p) := by
  have hpn : s.next ≠ p := by rintro rfl; exact hp (h.1.fresh _ (Nat.le_refl _))
  unfold reserve at hr
  dsimp only at hr
  by_cases hg : (s.arr i).allocated < grow k (s.arr i).allocated t
  · rw [if_pos hg] at hr
    cases oom with
    | true => simp at hr
    | false =>
      simp only [Bool.false_eq_true, if_false] at hr
      obtain ⟨s2, e2, hr⟩ := Option.bind_eq_some_iff.1 hr
      obtain ⟨s3, e3, hr⟩ := Option.bind_eq_some_iff.1 hr
      simp only [Option.some.injEq] at hr
      have f2 : s2.heap p = s.heap p := by
        have fa : (alloc s (grow k (s.arr i).allocated t)).1.heap p = s.heap p := by
          simp [alloc, St.setHeap, Ne.symm hpn]
        split at e2
        · obtain ⟨old, _, e2⟩ := Option.bind_eq_some_iff.1 e2
          rw [(wr_frame e2).2 p (by simp [alloc, hpn]), fa]
        · cases e2; exact fa
      subst hr
      refine ⟨fun ho _ => ?_, fun ho => ?_, fun hn => absurd hg hn, fun _ _ => ?_⟩
      · rw [if_pos ho.1, ho.2] at e3
        exact (release_frame e3).2.1
      · show s3.heap p = _
        by_cases h0 : 0 < (s.arr i).allocated
        · obtain ⟨q, b, h1, h2, h3⟩ := h.1.block i h0
          have hqp : p ≠ q := by rintro rfl; exact ho ⟨h0, h1⟩
          rw [if_pos h0, h1] at e3
          rw [(release_frame e3).2.2 p hqp, f2]
        · rw [if_neg h0] at e3; cases e3; exact f2
      · simp [St.setArr, alloc, hpn]
  · rw [if_neg hg] at hr
    simp only [Option.some.injEq] at hr
    subst hr
    exact ⟨fun _ hh => absurd hh hg, fun _ => rfl, fun _ => rfl, fun h0 ho hq => ho ⟨h0, hq⟩⟩

theorem rdAt_part {s : St α} {xs : List α} {p off n : Nat} {b : List (Option α)} (hb : s.heap p = some b)
    (hl : xs.length ≤ b.length) (hx : b.take xs.length = xs.map some) (h : off + n ≤ xs.length) :
    rdAt s p off n = some ((part xs off n).map some) := by
  unfold rdAt
  rw [hb, Option.bind_some, if_pos (by omega)]
  have e : (b.drop off).take n = ((b.take xs.length).drop off).take n := by
    rw [List.drop_take, List.take_take, Nat.min_eq_left (by omega)]
  rw [e, hx, part, ← List.map_drop, ← List.map_take]

/-- C218 (appending a part of the array to itself). The part arrives, exactly as if it had been copied out
    first, unless the array has to be reallocated for it: then the code reads it from the block that was
    just freed. -/
theorem C218_append_partial {s : St α} {ab : Contents α} (h : R s ab) (i p off n : Nat) (oom : Bool)
    (hp : Owns s i p) (hn : off + n ≤ (ab i).length) :
    if (s.arr i).allocated < (ab i).length + n ∧ 0 < n ∧ (ab i).length + n < 10240 ∧ oom = false
    then addFrom s i p off n oom = none
    else addFrom s i p off n oom = addElems s i (part (ab i) off n) oom := by
  have hcnt := (h.2 i).1
  have hlen := part_length hn
  obtain ⟨p', b, h1, h2, h3, h4, h5, h6⟩ := R_block h hp.1
  rw [hp.2] at h1; cases h1
  have hg := grow_ge 3 (s.arr i).allocated ((s.arr i).count + n)
  unfold addFrom addElems
  dsimp only
  rw [hlen]
  by_cases c1 : (s.arr i).count ≥ MAX_COUNT
  · rw [if_pos c1, if_pos c1, if_neg]; simp only [MAX_COUNT] at c1; omega
  rw [if_neg c1, if_neg c1]
  by_cases c2 : n ≥ MAX_COUNT
  · rw [if_pos c2, if_pos c2, if_neg]; simp only [MAX_COUNT] at c2; omega
  rw [if_neg c2, if_neg c2]
  by_cases c3 : n + (s.arr i).count ≥ MAX_COUNT
  · rw [if_pos c3, if_pos c3, if_neg]; simp only [MAX_COUNT] at c3; omega
  rw [if_neg c3, if_neg c3]
  simp only [MAX_COUNT] at c3
  rcases reserve_spec h 3 i ((s.arr i).count + n) (by omega) oom with ⟨ho, hr⟩ | ⟨s1, hr, hR, hcap⟩
  · rw [hr, if_neg (by simp [ho])]; rfl
  · rw [hr]
    simp only [Option.bind_some]
    obtain ⟨g1, _, g3, _⟩ := reserve_heap h hr p (by rw [h2]; simp)
    by_cases c4 : 0 < n
    · rw [if_pos c4, if_pos c4]
      by_cases hgrow : (s.arr i).allocated < (ab i).length + n
      · have hgg : (s.arr i).allocated < grow 3 (s.arr i).allocated ((s.arr i).count + n) := by omega
        have hof : oom = false := by
          cases oom with
          | false => rfl
          | true => unfold reserve at hr; dsimp only at hr; rw [if_pos hgg] at hr; simp at hr
        rw [if_pos ⟨hgrow, c4, by omega, hof⟩]
        simp [memcpy, rdAt, g1 hp hgg]
      · rw [if_neg (by omega)]
        have hgn : ¬ (s.arr i).allocated < grow 3 (s.arr i).allocated ((s.arr i).count + n) := by
          unfold grow; rw [if_neg (by omega)]; omega
        have := g3 hgn
        subst this
        have hr2 := rdAt_part (s := s1) (n := n) (off := off) h2 (by rw [h3]; exact hcnt ▸ h.1.count i) h4 hn
        unfold memcpy
        rw [hr2, Option.bind_some, if_neg (by omega)]
    · rw [if_neg c4, if_neg c4, if_neg (by omega)]

/-- C218 (a part of another array). Elements read from the block of another array arrive as if copied out
    first, reallocation or not. -/
theorem C218_other {s : St α} {ab : Contents α} (h : R s ab) (i j p off n : Nat) (oom : Bool)
    (hij : i ≠ j) (hp : Owns s j p) (hn : off + n ≤ (ab j).length) :
    addFrom s i p off n oom = addElems s i (part (ab j) off n) oom := by
  have hcnt := (h.2 i).1
  have hcj := (h.2 j).1
  have hlen := part_length hn
  obtain ⟨p', b, h1, h2, h3, h4, h5, h6⟩ := R_block h hp.1
  rw [hp.2] at h1; cases h1
  have hno : ¬ Owns s i p := fun ho => hij (h.1.unique i j p ho hp)
  unfold addFrom addElems
  dsimp only
  rw [hlen]
  by_cases c1 : (s.arr i).count ≥ MAX_COUNT
  · rw [if_pos c1, if_pos c1]
  rw [if_neg c1, if_neg c1]
  by_cases c2 : n ≥ MAX_COUNT
  · rw [if_pos c2, if_pos c2]
  rw [if_neg c2, if_neg c2]
  by_cases c3 : n + (s.arr i).count ≥ MAX_COUNT
  · rw [if_pos c3, if_pos c3]
  rw [if_neg c3, if_neg c3]
  simp only [MAX_COUNT] at c3
  rcases reserve_spec h 3 i ((s.arr i).count + n) (by omega) oom with ⟨ho, hr⟩ | ⟨s1, hr, hR, hcap⟩
  · rw [hr]; rfl
  · rw [hr]
    simp only [Option.bind_some]
    obtain ⟨_, g2, _, g4⟩ := reserve_heap h hr p (by rw [h2]; simp)
    by_cases c4 : 0 < n
    · rw [if_pos c4, if_pos c4]
      have hb : s1.heap p = some b := by rw [g2 hno, h2]
      unfold memcpy
      rw [rdAt_part hb (by rw [h3]; exact hcj ▸ h.1.count j) h4 hn, Option.bind_some,
        if_neg (fun hh => g4 (by omega) hno hh.1)]
    · rw [if_neg c4, if_neg c4]

/-- C218 (assigning a part of a byte buffer to itself, exactly). No reallocation happens, but the copy goes
    to the front of the same block: it is undefined exactly when the part starts before position `n`; any
    other part is assigned. -/
theorem C218_assign_partial {s : St α} {ab : Contents α} (h : R s ab) (i p off n : Nat) (oom : Bool)
    (hp : Owns s i p) (hn : off + n ≤ (ab i).length) (hs : n < 10240) :
    if off < n then copyDataFrom s i p off n oom = none
    else copyDataFrom s i p off n oom = copyData s i (part (ab i) off n) oom := by
  have hcnt := (h.2 i).1
  have hlen := part_length hn
  obtain ⟨p', b, h1, h2, h3, h4, h5, h6⟩ := R_block h hp.1
  rw [hp.2] at h1; cases h1
  have hc := h.1.count i
  unfold copyDataFrom copyData addFrom addElems
  dsimp only
  rw [hlen]
  generalize hs0 : s.setArr i { (s.arr i) with count := 0 } = s0
  have a0 : s0.arr i = { (s.arr i) with count := 0 } := by subst hs0; simp [St.setArr]
  have hh : s0.heap = s.heap := by subst hs0; rfl
  rw [a0]
  dsimp only
  have c1 : ¬ (0 ≥ MAX_COUNT) := by simp [MAX_COUNT]
  have c2 : ¬ (n ≥ MAX_COUNT) := by simp only [MAX_COUNT]; omega
  have c3 : ¬ (n + 0 ≥ MAX_COUNT) := by simp only [MAX_COUNT]; omega
  rw [if_neg c1, if_neg c1, if_neg c2, if_neg c2, if_neg c3, if_neg c3]
  have hgn : ¬ (s0.arr i).allocated < grow 3 (s0.arr i).allocated (0 + n) := by
    rw [a0]; unfold grow; rw [if_neg (by dsimp only; omega)]; omega
  have hres : reserve 3 s0 i (0 + n) oom = some (some s0) := by
    unfold reserve; dsimp only; rw [if_neg hgn]
  rw [hres]
  simp only [Option.bind_some]
  by_cases c4 : 0 < n
  · rw [if_pos c4, if_pos c4]
    have hr2 := rdAt_part (s := s0) (n := n) (off := off) (by rw [hh]; exact h2) (by omega) h4 hn
    have hptr : (s0.arr i).ptr = some p := by rw [a0]; exact hp.2
    unfold memcpy
    rw [hr2, Option.bind_some, hptr]
    by_cases c5 : off < n
    · rw [if_pos c5, if_pos ⟨rfl, by omega, by omega⟩]; rfl
    · rw [if_neg c5, if_neg (by omega)]
  · rw [if_neg c4, if_neg c4, if_neg (by omega)]

theorem strlen_text [DecidableEq α] (z : α) (t : List α) (r : List (Option α)) (ht : z ∉ t) :
    strlen z (t.map some ++ some z :: r) = some t.length := by
  induction t with
  | nil => simp [strlen]
  | cons c t ih =>
    have hc : c ≠ z := fun e => ht (by simp [e])
    simp [strlen, hc, ih (fun hm => ht (List.mem_cons_of_mem _ hm))]

/-- the block of a string holds the text from `off` on and its NUL -/
theorem text_block [DecidableEq α] {z : α} {s : St α} {i p off : Nat} {t : List α} (ht : Text z s i t)
    (hp : (s.arr i).ptr = some p) (ho : off ≤ t.length) :
    ∃ b, s.heap p = some b ∧ t.length < b.length ∧ b.take t.length = t.map some ∧
      strlen z (b.drop off) = some (t.length - off) := by
  obtain ⟨hz, q, b, e1, e2, e3, e4⟩ := ht
  rw [hp] at e1; cases e1
  have hb : b = t.map some ++ some z :: b.drop (t.length + 1) := by
    have := List.take_append_drop (t.length + 1) b
    rw [e4] at this
    simpa using this.symm
  refine ⟨b, e2, e3, ?_, ?_⟩
  · rw [hb, List.take_append_of_le_length (by simp), List.take_of_length_le (by simp)]
  · rw [hb, List.drop_append_of_le_length (by simpa using ho), ← List.map_drop,
      strlen_text z _ _ (fun hm => hz (List.mem_of_mem_drop hm)), List.length_drop]

/-- C218 (appending the tail of a string to it, exactly). Undefined exactly when the string is reallocated
    for it; otherwise the tail arrives. -/
theorem C218_strcat_partial [DecidableEq α] {s : St α} {ab : Contents α} (h : R s ab) (z : α) (i p off : Nat) (oom : Bool)
    (hp : Owns s i p) (ht : Text z s i (ab i)) (ho : off ≤ (ab i).length) :
    if (s.arr i).allocated < 2 * (ab i).length - off + 1 ∧ off < (ab i).length ∧
       2 * (ab i).length - off < 10240 ∧ oom = false
    then strcatFrom z s i p off oom = none
    else strcatFrom z s i p off oom = strcat z s i ((ab i).drop off) oom := by
  have hcnt := (h.2 i).1
  obtain ⟨b, h2, h5, h4, hstr⟩ := text_block ht hp.2 ho
  obtain ⟨p', b', h1, h2', h3, _⟩ := R_block h hp.1
  rw [hp.2] at h1; cases h1
  rw [h2] at h2'; cases h2'
  have hg := grow_ge 15 (s.arr i).allocated ((s.arr i).count + ((ab i).length - off) + 1)
  have hpart : part (ab i) off ((ab i).length - off) = (ab i).drop off := by
    unfold part; rw [List.take_of_length_le (by simp)]
  unfold strcatFrom
  rw [h2, Option.bind_some, hstr, Option.bind_some]
  unfold strcat
  dsimp only
  rw [List.length_drop]
  generalize hn : (ab i).length - off = n at *
  by_cases c1 : (s.arr i).count ≥ MAX_COUNT
  · rw [if_pos c1, if_pos c1, if_neg]; simp only [MAX_COUNT] at c1; omega
  rw [if_neg c1, if_neg c1]
  by_cases c2 : n ≥ MAX_COUNT
  · rw [if_pos c2, if_pos c2, if_neg]; simp only [MAX_COUNT] at c2; omega
  rw [if_neg c2, if_neg c2]
  by_cases c3 : n + (s.arr i).count ≥ MAX_COUNT
  · rw [if_pos c3, if_pos c3, if_neg]; simp only [MAX_COUNT] at c3; omega
  rw [if_neg c3, if_neg c3]
  simp only [MAX_COUNT] at c3
  rcases reserve_spec h 15 i ((s.arr i).count + n + 1) (by omega) oom with ⟨ho', hr⟩ | ⟨s1, hr, hR, hcap⟩
  · rw [hr, if_neg (by simp [ho'])]; rfl
  · rw [hr]
    simp only [Option.bind_some]
    obtain ⟨g1, _, g3, _⟩ := reserve_heap h hr p (by rw [h2]; simp)
    by_cases c4 : 0 < n
    · rw [if_pos c4, if_pos c4]
      by_cases hgrow : (s.arr i).allocated < (ab i).length + n + 1
      · have hgg : (s.arr i).allocated < grow 15 (s.arr i).allocated ((s.arr i).count + n + 1) := by omega
        have hof : oom = false := by
          cases oom with
          | false => rfl
          | true => unfold reserve at hr; dsimp only at hr; rw [if_pos hgg] at hr; simp at hr
        rw [if_pos ⟨by omega, by omega, by omega, hof⟩]
        simp [memcpy, rdAt, g1 hp hgg]
      · rw [if_neg (by omega)]
        have hgn : ¬ (s.arr i).allocated < grow 15 (s.arr i).allocated ((s.arr i).count + n + 1) := by
          unfold grow; rw [if_neg (by omega)]; omega
        have := g3 hgn
        subst this
        have hr2 := rdAt_part (s := s1) (n := n) (off := off) h2 (by omega) h4 (by omega)
        rw [hpart] at hr2
        unfold memcpy
        rw [hr2, Option.bind_some, if_neg (by omega)]
    · rw [if_neg c4, if_neg c4, if_neg (by omega)]

/-- C218 (assigning the tail of a string to it, exactly). Undefined exactly when the tail is longer than
    what precedes it, in particular for the whole string; otherwise the string becomes its tail. -/
theorem C218_strcpy_partial [DecidableEq α] {s : St α} {ab : Contents α} (h : R s ab) (z : α) (i p off : Nat) (oom : Bool)
    (hp : Owns s i p) (ht : Text z s i (ab i)) (ho : off ≤ (ab i).length) (hs : (ab i).length - off < 10240) :
    if off < (ab i).length - off then strcpyFrom z s i p off oom = none
    else strcpyFrom z s i p off oom = strcpy z s i ((ab i).drop off) oom := by
  have hcnt := (h.2 i).1
  obtain ⟨b, h2, h5, h4, hstr⟩ := text_block ht hp.2 ho
  obtain ⟨p', b', h1, h2', h3, _⟩ := R_block h hp.1
  rw [hp.2] at h1; cases h1
  rw [h2] at h2'; cases h2'
  have hc := h.1.count i
  have hpart : part (ab i) off ((ab i).length - off) = (ab i).drop off := by
    unfold part; rw [List.take_of_length_le (by simp)]
  unfold strcpyFrom strcpy strcatFrom strcat
  dsimp only
  generalize hs0 : s.setArr i { (s.arr i) with count := 0 } = s0
  have a0 : s0.arr i = { (s.arr i) with count := 0 } := by subst hs0; simp [St.setArr]
  have hh : s0.heap = s.heap := by subst hs0; rfl
  rw [hh, h2, Option.bind_some, hstr, Option.bind_some, List.length_drop]
  generalize hn : (ab i).length - off = n at *
  rw [a0]
  dsimp only
  have c1 : ¬ (0 ≥ MAX_COUNT) := by simp [MAX_COUNT]
  have c2 : ¬ (n ≥ MAX_COUNT) := by simp only [MAX_COUNT]; omega
  have c3 : ¬ (n + 0 ≥ MAX_COUNT) := by simp only [MAX_COUNT]; omega
  rw [if_neg c1, if_neg c1, if_neg c2, if_neg c2, if_neg c3, if_neg c3]
  have hgn : ¬ (s0.arr i).allocated < grow 15 (s0.arr i).allocated (0 + n + 1) := by
    rw [a0]; unfold grow; rw [if_neg (by dsimp only; omega)]; dsimp only; omega
  have hres : reserve 15 s0 i (0 + n + 1) oom = some (some s0) := by
    unfold reserve; dsimp only; rw [if_neg hgn]
  rw [hres]
  simp only [Option.bind_some]
  by_cases c4 : 0 < n
  · rw [if_pos c4, if_pos c4]
    have hr2 := rdAt_part (s := s0) (n := n) (off := off) (by rw [hh]; exact h2) (by omega) h4 (by omega)
    rw [hpart] at hr2
    have hptr : (s0.arr i).ptr = some p := by rw [a0]; exact hp.2
    unfold memcpy
    rw [hr2, Option.bind_some, hptr]
    by_cases c5 : off < n
    · rw [if_pos c5, if_pos ⟨rfl, by omega, by omega⟩]; rfl
    · rw [if_neg c5, if_neg (by omega)]
  · rw [if_neg c4, if_neg c4, if_neg (by omega)]

/-! ### A program that meets the hypotheses -/

/-- the string "AB": a block of 16, of which 3 are written -/
def ab2 : Option (List Rc × St UInt8) := run 0 start [(.strcpy 0 [65, 66], false)]

/-- The byte array 0 holds 1, 2, 3, 4 in a block of 4; array 1 holds 9. -/
def arr4 : Option (List Rc × St UInt8) := run 0 start [(.add 0 [1, 2, 3, 4], false), (.add 1 [9], false)]

/-- Appending the array's first element to it reads freed memory, copying its last two to the front does not,
    copying the whole onto itself does; appending "B" to "AB" gives "ABB". -/
theorem C218_violated :
    (∃ rcs s, arr4 = some (rcs, s) ∧ R s (upd (upd (fun _ => []) 0 [1, 2, 3, 4]) 1 [9]) ∧ Owns s 0 0 ∧
      addFrom s 0 0 0 1 false = none ∧ copyDataFrom s 0 0 0 4 false = none ∧
      (copyDataFrom s 0 0 2 2 false).isSome = true ∧ (addFrom s 1 0 0 4 false).isSome = true) ∧
    (∃ rcs s, ab2 = some (rcs, s) ∧ R s (upd (fun _ => []) 0 [65, 66]) ∧ Owns s 0 0 ∧ Text 0 s 0 [65, 66] ∧
      strcpyFrom 0 s 0 0 0 false = none ∧ (strcpyFrom 0 s 0 0 1 false).isSome = true ∧
      ((strcatFrom 0 s 0 0 1 false).bind fun r => r.2.heap 0).map (·.take 4) = some [some 65, some 66, some 66, some 0]) := by
  have hr1 : ∀ rcs s, arr4 = some (rcs, s) → R s (upd (upd (fun _ => []) 0 [1, 2, 3, 4]) 1 [9]) := by
    intro rcs s he
    obtain ⟨r1, t1, f1, g1⟩ := addElems_spec (start_R (α := UInt8)) 0 [1, 2, 3, 4] false
    rcases g1 with ⟨g1, _⟩ | ⟨_, ⟨_, g1⟩ | ⟨g1, _⟩⟩
    · simp at g1
    · obtain ⟨r2, t2, f2, g2⟩ := addElems_spec g1 1 [9] false
      rcases g2 with ⟨g2, _⟩ | ⟨_, ⟨_, g2⟩ | ⟨g2, _⟩⟩
      · simp [upd] at g2
      · have hs : s = t2 := by
          simp only [arr4, run, step, f1, Option.bind_some] at he
          rw [f2] at he
          simp only [Option.bind_some, Option.some.injEq, Prod.mk.injEq] at he
          exact he.2.symm
        rw [hs]; simpa [upd] using g2
      · cases g2
    · cases g1
  have hr2 : ∀ rcs s, ab2 = some (rcs, s) → R s (upd (fun _ => []) 0 [65, 66]) ∧ Text 0 s 0 [65, 66] := by
    intro rcs s he
    obtain ⟨t1, f1, g1, g2⟩ := C26_strcpy (start_R (α := UInt8)) 0 0 [65, 66] (by decide) (by decide)
    simp only [ab2, run, step, f1, Option.bind_some, Option.some.injEq, Prod.mk.injEq] at he
    rw [← he.2]
    exact ⟨g1, g2⟩
  have h1 : arr4.any (fun r => decide (0 < (r.2.arr 0).allocated) && (r.2.arr 0).ptr == some 0 &&
      (addFrom r.2 0 0 0 1 false).isNone && (copyDataFrom r.2 0 0 0 4 false).isNone &&
      (copyDataFrom r.2 0 0 2 2 false).isSome && (addFrom r.2 1 0 0 4 false).isSome) = true := by decide +kernel
  have h2 : ab2.any (fun r => decide (0 < (r.2.arr 0).allocated) && (r.2.arr 0).ptr == some 0 &&
      (strcpyFrom 0 r.2 0 0 0 false).isNone && (strcpyFrom 0 r.2 0 0 1 false).isSome &&
      (((strcatFrom 0 r.2 0 0 1 false).bind fun r => r.2.heap 0).map (·.take 4) ==
        some [some 65, some 66, some 66, some 0])) = true := by decide +kernel
  constructor
  · cases he : arr4 with
    | none => rw [he] at h1; cases h1
    | some r =>
      rw [he] at h1
      simp only [Option.any_some, Bool.and_eq_true, decide_eq_true_eq, beq_iff_eq, Option.isNone_iff_eq_none] at h1
      exact ⟨r.1, r.2, rfl, hr1 r.1 r.2 he, ⟨h1.1.1.1.1.1, h1.1.1.1.1.2⟩, h1.1.1.1.2, h1.1.1.2, h1.1.2, h1.2⟩
  · cases he : ab2 with
    | none => rw [he] at h2; cases h2
    | some r =>
      rw [he] at h2
      simp only [Option.any_some, Bool.and_eq_true, decide_eq_true_eq, beq_iff_eq, Option.isNone_iff_eq_none] at h2
      exact ⟨r.1, r.2, rfl, (hr2 r.1 r.2 he).1, ⟨h2.1.1.1.1, h2.1.1.1.2⟩, (hr2 r.1 r.2 he).2, h2.1.1.2, h2.1.2, h2.2⟩

/-- The hypotheses of `C218_append_partial`, `C218_other`, `C218_assign_partial`, `C218_strcat_partial` and
    `C218_strcpy_partial` are met by these two programs. -/
example : (∃ (s : St UInt8) (ab : Contents UInt8), R s ab ∧ Owns s 0 0 ∧ 2 + 2 ≤ (ab 0).length) ∧
    (∃ (s : St UInt8) (ab : Contents UInt8), R s ab ∧ Owns s 0 0 ∧ Text 0 s 0 (ab 0) ∧ 1 ≤ (ab 0).length) := by
  obtain ⟨⟨_, s, _, h1, h2, _⟩, ⟨_, t, _, g1, g2, g3, _⟩⟩ := C218_violated
  exact ⟨⟨s, _, h1, h2, by simp [upd]⟩, ⟨t, _, g1, g2, by simpa [upd] using g3, by simp [upd]⟩⟩

end Verif.DynSelf
