import Verif.SysApi
/-! # C136 – C143: the small system services -/

namespace Verif.SysApi

/-! ## C136: identity strings -/

/-- A C string of `n` characters with its terminator, in a buffer of `size` bytes. -/
structure Text (f : Filled) (size : Nat) (s : List Nat) : Prop where
  bytes : f.bytes = s ++ [0]
  fits : s.length + 1 ≤ size

theorem toInt32_le (n : Nat) : toInt32 n ≤ n := by
  unfold toInt32
  omega

theorem toInt32_small (n : Nat) (h : n < 2 ^ 31) : toInt32 n = n := by
  unfold toInt32
  omega

theorem uuidCopy_length (room : Nat) (cs : List Nat) : (uuidCopy room cs).length ≤ room := by
  induction cs generalizing room with
  | nil => simp [uuidCopy]
  | cons c cs ih =>
    unfold uuidCopy
    split
    · simp
    · split
      · have := ih (room - 1); simp; omega
      · exact ih room

theorem uuidCopy_eq (room : Nat) (cs : List Nat) : uuidCopy room cs = (cs.filter (fun c => c ≠ 45 ∧ c ≠ 10 ∧ c ≠ 13)).take room := by
  induction cs generalizing room with
  | nil => simp [uuidCopy]
  | cons c cs ih =>
    unfold uuidCopy
    by_cases h0 : room = 0
    · simp [h0]
    · by_cases hc : c ≠ 45 ∧ c ≠ 10 ∧ c ≠ 13
      · obtain ⟨r, rfl⟩ : ∃ r, room = r + 1 := ⟨room - 1, by omega⟩
        simp [hc, ih]
      · rw [if_neg h0, if_neg hc, ih, List.filter_cons_of_neg (by simpa using hc)]

/-- aosl_get_uuid and aosl_os_version never store outside the caller's buffer, whatever its size and whatever the kernel's files hold, and a success leaves a terminated string. -/
theorem C136_in_buffer (src : Option (List Nat)) (bufSz : Nat) (f : Filled) (hf : f = getUuid src bufSz ∨ f = osVersion src bufSz) :
    f.bytes.length ≤ bufSz ∧ (f.ret = 0 ∨ f.ret = -1) ∧ (f.ret = 0 → ∃ s, Text f bufSz s) := by
  have hle := toInt32_le bufSz
  rcases hf with hf | hf <;> rw [hf]
  · unfold getUuid
    by_cases h : toInt32 bufSz ≤ 1
    · simp [h]
    · cases src with
      | none => simp [h]; omega
      | some cs =>
        have := uuidCopy_length ((toInt32 bufSz).toNat - 1) (cs.take 256)
        simp [h]
        exact ⟨by omega, _, rfl, by omega⟩
  · unfold osVersion
    by_cases h : toInt32 bufSz ≤ 1
    · simp [h]
    · cases src with
      | none => simp [h]; omega
      | some cs =>
        simp [h]
        exact ⟨by omega, _, rfl, by simp; omega⟩

example : (osVersion (some [76, 105, 110, 117, 120]) 4).bytes = [76, 105, 110, 0] := by decide +kernel

/-- A buffer of at least 33 bytes receives all characters of the kernel's identifier, without dashes and line ends. -/
theorem C136_uuid (cs : List Nat) (bufSz : Nat) (h1 : 33 ≤ bufSz) (h2 : bufSz < 2 ^ 31) (hl : cs.length ≤ 256)
    (hc : (cs.filter (fun c => c ≠ 45 ∧ c ≠ 10 ∧ c ≠ 13)).length = 32) :
    (getUuid (some cs) bufSz).ret = 0 ∧ Text (getUuid (some cs) bufSz) bufSz (cs.filter (fun c => c ≠ 45 ∧ c ≠ 10 ∧ c ≠ 13)) := by
  have e := toInt32_small bufSz h2
  have : ¬ toInt32 bufSz ≤ 1 := by rw [e]; omega
  have e2 : (toInt32 bufSz).toNat - 1 = bufSz - 1 := by rw [e]; omega
  have : getUuid (some cs) bufSz = ⟨0, cs.filter (fun c => c ≠ 45 ∧ c ≠ 10 ∧ c ≠ 13) ++ [0]⟩ := by
    simp only [getUuid, this, if_false, uuidCopy_eq, e2, List.take_of_length_le hl]
    rw [List.take_of_length_le (by rw [hc]; omega)]
  rw [this]
  exact ⟨rfl, rfl, by rw [hc]; omega⟩

example : ((List.replicate 8 97 ++ [45] ++ List.replicate 4 98 ++ [45] ++ List.replicate 4 49 ++ [45] ++ List.replicate 4 50 ++ [45] ++ List.replicate 12 51 ++ [10]).filter
    (fun c => c ≠ 45 ∧ c ≠ 10 ∧ c ≠ 13)).length = 32 := by decide +kernel

/-! ## C137: random bytes -/

theorem randLoop_ok (left : Nat) (rs : List Rd) (r : Int) (bs : List Nat) (h : randLoop left rs = some (r, bs)) :
    bs.length ≤ left ∧ (r = 0 ∨ r = -1) ∧ (r = 0 → bs.length = left) := by
  induction rs generalizing left r bs with
  | nil =>
    simp only [randLoop] at h
    split at h <;> simp_all
  | cons x rs ih =>
    simp only [randLoop] at h
    split at h
    · simp_all
    · cases x with
      | eintr => exact ih _ _ _ h
      | error => simp at h; obtain ⟨rfl, rfl⟩ := h; simp
      | bytes b =>
        simp only [Option.map_eq_some_iff, Prod.exists] at h
        obtain ⟨r', bs', h1, h2⟩ := h
        have := ih _ _ _ h1
        simp only [Prod.mk.injEq] at h2
        obtain ⟨rfl, rfl⟩ := h2
        simp only [List.length_append, List.length_take] at this ⊢
        refine ⟨by omega, this.2.1, fun h0 => ?_⟩
        have := this.2.2 h0
        omega

/-- aosl_rand_bytes never stores more than `len` bytes; below 2 GiB a success means that all `len` bytes were filled, however the reads were split and interrupted. -/
theorem C137_filled_partial (opened : Bool) (len : Nat) (rs : List Rd) (r : Int) (bs : List Nat) (h : randBytes opened len rs = some (r, bs)) :
    bs.length ≤ len ∧ (r = 0 ∨ r = -1) ∧ (r = 0 → len < 2 ^ 31 → bs.length = len) := by
  have hle := toInt32_le len
  unfold randBytes at h
  simp only at h
  split at h
  · simp at h; obtain ⟨rfl, rfl⟩ := h; simp
  · split at h
    · simp at h; obtain ⟨rfl, rfl⟩ := h; simp
    · have := randLoop_ok _ _ _ _ h
      refine ⟨by omega, this.2.1, fun h0 hl => ?_⟩
      have e := toInt32_small len hl
      have := this.2.2 h0
      rw [e] at this
      omega

example : randBytes true 4 [.bytes [7, 8], .eintr, .bytes [9, 1, 2, 3]] = some (0, [7, 8, 9, 1]) := by decide +kernel

/-- A request of 2^32 + n bytes (0 < n < 2^31) succeeds after filling n bytes only: the rest of the buffer is not random. -/
theorem C137_truncated (n : Nat) (h0 : 0 < n) (hn : n < 2 ^ 31) (bs : List Nat) (hb : bs.length = n) :
    randBytes true (2 ^ 32 + n) [.bytes bs] = some (0, bs) := by
  have e : toInt32 (((2 ^ 32 + n : Nat)) : Int) = n := by unfold toInt32; omega
  have h1 : ¬ ((n : Int) ≤ 0) := by omega
  have h2 : n ≠ 0 := by omega
  have e3 : bs.take n = bs := List.take_of_length_le (by omega)
  unfold randBytes
  simp only [e, h1, if_false, Bool.not_true, Bool.false_eq_true]
  simp [randLoop, h2, e3, hb]

/-! ## C138: files -/

/-- aosl_fsize is exact below 2 GiB and tells a missing file from every such size. -/
theorem C138_size_partial (size : Nat) (h : size < 2 ^ 31) : fsize (.file size) = size ∧ fsize .absent < 0 := by
  exact ⟨toInt32_small size h, by simp [fsize]⟩

/-- A file of 2 GiB up to 4 GiB looks like a failure. -/
theorem C138_looks_failed (size : Nat) (h1 : 2 ^ 31 ≤ size) (h2 : size < 2 ^ 32) : fsize (.file size) < 0 := by
  unfold fsize toInt32
  simp only
  omega

/-- From 4 GiB on the size reported is never the right one. -/
theorem C138_wrong_size (size : Nat) (h : 2 ^ 32 ≤ size) : fsize (.file size) ≠ size := by
  unfold fsize toInt32
  simp only
  omega

example : fsize (.file (2 ^ 32 + 10)) = 10 ∧ fsize (.file (2 ^ 32 - 1)) = -1 := by decide +kernel

/-- The count of aosl_fread and aosl_fwrite is exact below 2 GiB; a transfer of 2 GiB up to 4 GiB is reported as a failure. -/
theorem C138_count_partial (moved : Nat) : (moved < 2 ^ 31 → ioCount moved = moved) ∧ (2 ^ 31 ≤ moved → moved < 2 ^ 32 → ioCount moved < 0) := by
  unfold ioCount toInt32
  omega

/-- aosl_mkdir reports success although the path names a regular file and no directory exists. -/
theorem C138_mkdir_on_file (size : Nat) (ok : Bool) : mkdir (.file size) ok = (0, .file size) := by simp [mkdir]

/-- Otherwise a success means that the directory exists. -/
theorem C138_mkdir_partial (n : Node) (ok : Bool) (hn : ∀ size, n ≠ .file size) : ((mkdir n ok).1 = 0 ↔ (mkdir n ok).2 = .dir) ∧ ((mkdir n ok).1 ≠ 0 → (mkdir n ok).1 < 0) := by
  cases n with
  | absent => cases ok <;> simp [mkdir]
  | file s => exact absurd rfl (hn s)
  | dir => simp [mkdir]

/-! ## C139: sleeping -/

/-- Up to 4294967 ms (71.5 minutes) aosl_msleep sleeps as long as asked (0 counts as 1). -/
theorem C139_sleep_partial (ms : Nat) (h : ms ≤ 4294967) : msleepUs ms = max ms 1 * 1000 := by
  unfold msleepUs
  split <;> omega

/-- Any longer sleep ends too early. -/
theorem C139_short (ms : Nat) (h : 4294967 < ms) : msleepUs ms < ms * 1000 := by
  unfold msleepUs
  have h0 : ms ≠ 0 := by omega
  have : (ms * 1000 % 2 ^ 64) % 2 ^ 32 < 2 ^ 32 := Nat.mod_lt _ (by decide)
  simp only [h0, if_false]
  omega

/-- Asked for 4294968 ms, it sleeps less than a millisecond. -/
theorem C139_one_more : msleepUs 4294968 = 704 := by decide +kernel

/-! ## C140: clocks and the text of the time -/

/-- The millisecond tick never runs backwards, and never differs from the clock by a millisecond or more (for half a billion years). -/
theorem C140_tick_partial (s n s' n' : Nat) (hn : n < 1000000000) (hn' : n' < 1000000000) (h : s * 1000000000 + n ≤ s' * 1000000000 + n') (hs : s' < 2 ^ 54) :
    tickMs s n ≤ tickMs s' n' ∧ tickMs s n * 1000000 ≤ s * 1000000000 + n ∧ s * 1000000000 + n < tickMs s n * 1000000 + 1000000 := by
  have hs0 : s ≤ s' := by omega
  have e1 : tickMs s n = s * 1000 + n / 1000000 := by unfold tickMs; omega
  have e2 : tickMs s' n' = s' * 1000 + n' / 1000000 := by unfold tickMs; omega
  rw [e1, e2]
  omega

example : tickMs 3 999999999 = 3999 ∧ tickMs 4 0 = 4000 := by decide

/-- The seconds and milliseconds of the wall clock agree. -/
theorem C140_sec (s u : Nat) (hu : u < 1000000) (hs : s < 2 ^ 54) : timeSec s u = s ∧ timeMs s u / 1000 = timeSec s u := by
  have : timeMs s u = s * 1000 + u / 1000 := by unfold timeMs; omega
  unfold timeSec
  omega

/-- aosl_tick_us does not move. -/
theorem C140_tick_us_stopped (s n s' n' : Nat) : tickUs s n = tickUs s' n' := rfl

/-- aosl_time_str: with a date text of 19 characters (years 0 to 9999) and a positive length, the local array is not overrun, the caller's buffer neither, and the text is the date, a dot and the
three digits of the milliseconds, cut to the buffer. -/
theorem C140_time_str (date : List Nat) (nowMs : Nat) (junk : List Nat) (len : Nat) (hd : date.length = 19) (h0 : ∀ c ∈ date, c ≠ 0) (hj : junk.length = 24) (hlen : 0 < len) :
    ∃ f, timeStr date nowMs junk len = some f ∧ f.ret = 0 ∧ Text f len ((date ++ [46] ++ pad3 (nowMs % 1000)).take (len - 1)) := by
  have hl : ((len : Int) = 0) = False := by simp; omega
  have hneg : ¬ ((len : Int) < 0) := by omega
  have s1 : store junk 0 date = some (date ++ [0] ++ junk.drop 20) := by simp [store, hj, hd]
  have s2 : store (date ++ [0] ++ junk.drop 20) 19 (46 :: pad3 (nowMs % 1000)) = some (date ++ (46 :: pad3 (nowMs % 1000)) ++ [0]) := by
    have e1 : (date ++ [0] ++ junk.drop 20).take 19 = date := by
      rw [List.append_assoc, ← hd, List.take_left]
    simp [store, hj, hd, pad3]
  have e3 : cstr (date ++ (46 :: pad3 (nowMs % 1000)) ++ [0]) = date ++ (46 :: pad3 (nowMs % 1000)) := by
    unfold cstr
    rw [List.append_assoc, List.takeWhile_append_of_pos (by intro c hc; simpa using h0 c hc)]
    simp [pad3]
  refine ⟨⟨0, (date ++ (46 :: pad3 (nowMs % 1000))).take (len - 1) ++ [0]⟩, ?_, rfl, by simp, ?_⟩
  · simp only [timeStr, hl, if_false, s1, Option.bind_eq_bind, Option.bind_some, s2, e3, hneg]
    rfl
  · simp only [List.length_take]; omega

theorem C140_digits (n : Nat) (h : n < 1000) : (pad3 n).length = 3 ∧ (∀ c ∈ pad3 n, 48 ≤ c ∧ c ≤ 57) ∧
    ((pad3 n)[0]! - 48) * 100 + ((pad3 n)[1]! - 48) * 10 + ((pad3 n)[2]! - 48) = n := by
  refine ⟨rfl, ?_, ?_⟩
  · intro c hc
    simp only [pad3, List.mem_cons, List.not_mem_nil, or_false] at hc
    omega
  · simp [pad3]; omega

example : timeStr ("2026-11-18 05:16:07".toList.map Char.toNat) 1794978967042 (List.replicate 24 170) 64 =
    some ⟨0, "2026-11-18 05:16:07.042".toList.map Char.toNat ++ [0]⟩ := by decide +kernel

/-! ## C141: atomics -/

/-- What the header says of each call: result and new content, over the integers modulo 2^64. -/
def Says (v : BitVec 64) (o : AOp) (res new : BitVec 64) : Prop :=
  match o with
  | .read => res = v ∧ new = v
  | .set i => new = i
  | .inc => new.toInt = (v.toInt + 1).bmod (2 ^ 64)
  | .dec => new.toInt = (v.toInt - 1).bmod (2 ^ 64)
  | .addReturn i => new.toInt = (v.toInt + i.toInt).bmod (2 ^ 64) ∧ res = new
  | .subReturn i => new.toInt = (v.toInt - i.toInt).bmod (2 ^ 64) ∧ res = new
  | .incAndTest => new.toInt = (v.toInt + 1).bmod (2 ^ 64) ∧ (res ≠ 0 ↔ new.toInt = 0)
  | .decAndTest => new.toInt = (v.toInt - 1).bmod (2 ^ 64) ∧ (res ≠ 0 ↔ new.toInt = 0)
  | .cmpxchg old new' => res = v ∧ (v = old → new = new') ∧ (v ≠ old → new = v)
  | .xchg new' => res = v ∧ new = new'

theorem toInt_zero_iff (v : BitVec 64) : v.toInt = 0 ↔ v = 0 := by
  constructor
  · intro h; apply BitVec.eq_of_toInt_eq; simpa using h
  · rintro rfl; rfl

/-- Every call does what its documentation says. -/
theorem C141_calls (v : BitVec 64) (o : AOp) : Says v o (aop v o).1 (aop v o).2 := by
  cases o with
  | read => exact ⟨rfl, rfl⟩
  | set i => rfl
  | inc => simp [Says, aop, BitVec.toInt_add]
  | dec => simp [Says, aop, BitVec.toInt_sub]
  | addReturn i => simp [Says, aop, halAdd, BitVec.toInt_add]
  | subReturn i =>
    refine ⟨?_, rfl⟩
    simp only [aop, halAdd]
    rw [← BitVec.sub_eq_add_neg, BitVec.toInt_sub]
  | incAndTest =>
    refine ⟨by simp [aop, halAdd, BitVec.toInt_add], ?_⟩
    simp only [aop]
    rw [toInt_zero_iff]
    split <;> simp_all
  | decAndTest =>
    refine ⟨?_, ?_⟩
    · simp only [aop, halAdd]; rw [← BitVec.sub_eq_add_neg, BitVec.toInt_sub]; rfl
    · simp only [aop]
      rw [toInt_zero_iff]
      split <;> simp_all
  | cmpxchg old new =>
    simp only [Says, aop]
    split <;> simp_all
  | xchg new => exact ⟨rfl, rfl⟩

/-- The references held after the calls of a history that starts with `n` references. -/
def refs (n : Nat) : List AOp → Nat
  | [] => n
  | o :: os => refs (if o = .inc then n + 1 else if o = .decAndTest then n - 1 else n) os

/-- A reference count in use: only calls of inc and dec_and_test, each while there is a reference, and never 2^62 of them. -/
def Counting (n : Nat) : List AOp → Prop
  | [] => True
  | o :: os => 0 < n ∧ n < 2 ^ 62 ∧ (o = .inc ∧ Counting (n + 1) os ∨ o = .decAndTest ∧ Counting (n - 1) os)

theorem count_step (n : Nat) (h0 : 0 < n) (h1 : n < 2 ^ 62) :
    aop (BitVec.ofNat 64 n) .inc = (0, BitVec.ofNat 64 (n + 1)) ∧
    aop (BitVec.ofNat 64 n) .decAndTest = (if n = 1 then 1 else 0, BitVec.ofNat 64 (n - 1)) := by
  have e : halAdd (-1) (BitVec.ofNat 64 n) = BitVec.ofNat 64 (n - 1) := by
    obtain ⟨m, rfl⟩ : ∃ m, n = m + 1 := ⟨n - 1, by omega⟩
    unfold halAdd
    rw [BitVec.ofNat_add, ← BitVec.sub_eq_add_neg]
    exact BitVec.add_sub_cancel _ _
  refine ⟨?_, ?_⟩
  · simp only [aop, Prod.mk.injEq, true_and]
    apply BitVec.eq_of_toNat_eq
    simp
  · simp only [aop, e, Prod.mk.injEq, and_true]
    have : (BitVec.ofNat 64 (n - 1) = 0) ↔ n = 1 := by
      constructor
      · intro h
        have := congrArg BitVec.toNat h
        simp at this
        omega
      · rintro rfl; rfl
    by_cases h : n = 1
    · rw [if_pos (this.2 h), if_pos h]
    · rw [if_neg (fun x => h (this.1 x)), if_neg h]

/-- Reference counting with aosl_atomic_inc and aosl_atomic_dec_and_test, by any number of threads in any order: a call is told that it gave up the last reference exactly if it did. -/
theorem C141_last_reference (n : Nat) (os : List AOp) (hc : Counting n os) (i : Nat) (o : AOp) (ho : os[i]? = some o) :
    (∃ r, (arun (BitVec.ofNat 64 n) os).1[i]? = some r ∧ (r ≠ 0 ↔ o = .decAndTest ∧ refs n (os.take (i + 1)) = 0)) := by
  induction os generalizing n i with
  | nil => simp at ho
  | cons a os ih =>
    obtain ⟨h0, h1, hc⟩ := hc
    obtain ⟨e1, e2⟩ := count_step n h0 h1
    rcases hc with ⟨rfl, hc⟩ | ⟨rfl, hc⟩
    · cases i with
      | zero =>
        simp only [List.getElem?_cons_zero, Option.some.injEq] at ho
        subst ho
        simp [arun, e1]
      | succ i =>
        simp only [List.getElem?_cons_succ] at ho
        have := ih (n + 1) hc i ho
        simpa [arun, e1, refs] using this
    · cases i with
      | zero =>
        simp only [List.getElem?_cons_zero, Option.some.injEq] at ho
        subst ho
        refine ⟨_, rfl, ?_⟩
        rw [e2]
        simp only [List.take_succ_cons, List.take_zero, refs]
        by_cases h : n = 1 <;> simp [h]
        omega
      | succ i =>
        simp only [List.getElem?_cons_succ] at ho
        have := ih (n - 1) hc i ho
        simpa [arun, e2, refs] using this

/-- Two threads share an object with one reference: one takes another reference, both give theirs up; the second is told. -/
example : Counting 1 [.inc, .decAndTest, .decAndTest] ∧ (arun 1 [.inc, .decAndTest, .decAndTest]).1 = [0, 0, 1] := by
  refine ⟨?_, by decide +kernel⟩
  simp [Counting]

/-- Once per object: among any number of cmpxchg calls that compete to replace the same value, exactly the first one in effect wins. -/
theorem C141_one_winner (old : BitVec 64) (news : List (BitVec 64)) (hn : ∀ x ∈ news, x ≠ old) (i : Nat) (hi : i < news.length) :
    ∃ r, (arun old (news.map (AOp.cmpxchg old))).1[i]? = some r ∧ (r = old ↔ i = 0) ∧ (arun old (news.map (AOp.cmpxchg old))).2 = news[0]! := by
  have lose : ∀ (v : BitVec 64) (l : List (BitVec 64)), v ≠ old →
      (arun v (l.map (AOp.cmpxchg old))).2 = v ∧ ∀ j, j < l.length → (arun v (l.map (AOp.cmpxchg old))).1[j]? = some v := by
    intro v l hv
    induction l with
    | nil => simp [arun]
    | cons a l ih =>
      have e : aop v (.cmpxchg old a) = (v, v) := by simp [aop, hv]
      refine ⟨by simpa [arun, e] using ih.1, ?_⟩
      intro j hj
      cases j with
      | zero => simp [arun, e]
      | succ j => simpa [arun, e] using ih.2 j (by simpa using hj)
  cases news with
  | nil => simp at hi
  | cons a l =>
    have e : aop old (.cmpxchg old a) = (old, a) := by simp [aop]
    have ha : a ≠ old := hn a (by simp)
    have := lose a l ha
    cases i with
    | zero => exact ⟨old, by simp [arun, e], by simp, by simpa [arun, e] using this.1⟩
    | succ j => exact ⟨a, by simpa [arun, e] using this.2 j (by simpa using hi), by simp [ha], by simpa [arun, e] using this.1⟩

example : (arun 0 ([5, 6, 7].map (AOp.cmpxchg 0))) = ([0, 5, 5], 5) := by decide +kernel

/-! ## C142: logging -/

/-- The level and the sink in force after a history: the last valid level set, the last function set. -/
structure InForce (os : List LOp) (g : Log) : Prop where
  level : g.level = ((os.filterMap (fun o => match o with | .setLevel l => if 0 ≤ l ∧ l ≤ 7 then some l else none | _ => none)).getLast?).getD 3
  sink : g.sink = ((os.filterMap (fun o => match o with | .setFunc f => some f | _ => none)).getLast?).getD none

theorem lrun_append (g : Log) (a b : List LOp) : lrun g (a ++ b) = ((lrun (lrun g a).1 b).1, (lrun g a).2 ++ (lrun (lrun g a).1 b).2) := by
  induction a generalizing g with
  | nil => simp [lrun]
  | cons o a ih => simp [lrun, ih, List.append_assoc]

theorem inForce (os : List LOp) : InForce os (lrun Log.init os).1 := by
  suffices H : ∀ n (os : List LOp), os.length = n → InForce os (lrun Log.init os).1 from H _ os rfl
  intro n
  induction n with
  | zero => intro os h; rw [List.length_eq_zero_iff] at h; subst h; exact ⟨rfl, rfl⟩
  | succ n ih =>
    intro os h
    obtain ⟨as, o, rfl⟩ : ∃ as o, os = as ++ [o] := ⟨os.dropLast, os.getLast (by intro e; simp [e] at h), (List.dropLast_concat_getLast _).symm⟩
    have := ih as (by simpa using h)
    obtain ⟨h1, h2⟩ := this
    rw [lrun_append]
    cases o with
    | setFunc f => exact ⟨by simpa [lrun, lop] using h1, by simp [lrun, lop]⟩
    | setLevel l =>
      by_cases hl : 0 ≤ l ∧ l ≤ 7
      · exact ⟨by simp [lrun, lop, hl], by simpa [lrun, lop, hl] using h2⟩
      · exact ⟨by simpa [lrun, lop, hl] using h1, by simpa [lrun, lop, hl] using h2⟩
    | getLevel => exact ⟨by simpa [lrun, lop] using h1, by simpa [lrun, lop] using h2⟩
    | log l m => exact ⟨by simpa [lrun, lop] using h1, by simpa [lrun, lop] using h2⟩
    | printf m => exact ⟨by simpa [lrun, lop] using h1, by simpa [lrun, lop] using h2⟩

/-- In any history of calls, a message is handed over exactly once, to the function in force, if its level is at most the level in force, and not at all otherwise; aosl_printf always gets through. -/
theorem C142_messages (os : List LOp) (o : LOp) :
    ∃ g, InForce os g ∧ (lrun Log.init (os ++ [o])).2 = (lrun Log.init os).2 ++
      (match o with
       | .log l m => if l ≤ g.level then [⟨g.sink, l, m⟩] else []
       | .printf m => [⟨g.sink, g.level, m⟩]
       | _ => []) := by
  refine ⟨_, inForce os, ?_⟩
  rw [lrun_append]
  cases o <;> simp [lrun, lop, vlog]

/-- The level stays within the documented range. -/
theorem C142_range (os : List LOp) : 0 ≤ (lrun Log.init os).1.level ∧ (lrun Log.init os).1.level ≤ 7 := by
  suffices H : ∀ (g : Log) os, 0 ≤ g.level ∧ g.level ≤ 7 → 0 ≤ (lrun g os).1.level ∧ (lrun g os).1.level ≤ 7 from H _ _ (by decide)
  intro g os
  induction os generalizing g with
  | nil => exact id
  | cons o os ih =>
    intro h
    apply ih
    cases o <;> simp only [lop] <;> try exact h
    split
    · rename_i h'; exact h'
    · exact h

example : (lrun Log.init [.log 4 1, .setLevel 9, .setLevel 6, .log 4 2, .setFunc (some 8), .log 7 3, .printf 4]).2 = [⟨none, 4, 2⟩, ⟨some 8, 6, 4⟩] := by decide +kernel

/-! ## C143: priorities -/

/-- Whatever the scheduler's range, the five priority classes are ordered and stay strictly inside it. -/
theorem C143_ordered (min max : Int) (h : 0 ≤ min) (l n hi hh rt : Int)
    (e1 : osPriority min max .low = some l) (e2 : osPriority min max .normal = some n) (e3 : osPriority min max .high = some hi)
    (e4 : osPriority min max .highest = some hh) (e5 : osPriority min max .rt = some rt) :
    min < l ∧ l ≤ n ∧ n ≤ hi ∧ hi ≤ hh ∧ hh ≤ rt ∧ rt < max ∧ l < rt := by
  by_cases hg : min = 22 ∨ max = 22 ∨ max - min ≤ 2
  · simp [osPriority, hg] at e1
  · have e : (min + 1 + (max - 1) - 1).tdiv 2 = (min + 1 + (max - 1) - 1) / 2 := Int.tdiv_eq_ediv_of_nonneg (by omega)
    simp only [osPriority, hg, if_false, Option.some.injEq, e] at e1 e2 e3 e4 e5
    have h3 : 2 < max - min := by omega
    clear hg e
    split at e3 <;> split at e4 <;> omega

/-- The range of SCHED_RR on Linux is 1 … 99. -/
example : [Pri.low, .normal, .high, .highest, .rt].map (osPriority 1 99) = [some 2, some 49, some 96, some 97, some 98] := by decide

/-- A range that ends at 22 is refused, because a failure is looked for as the value EINVAL. -/
theorem C143_range_22 (p : Pri) : osPriority 1 22 p = none := by simp [osPriority]

/-- A failure of aosl_fsize and of aosl_mkdir is -1 and leaves the file system alone. -/
theorem C138_failures : fsize .absent = -1 ∧ mkdir .absent false = (-1, .absent) := by simp [fsize, mkdir]

/-- The results fit their 64-bit types, and aosl_tick_us is always 0. -/
theorem C140_ranges (s x : Nat) : tickMs s x < 2 ^ 64 ∧ timeMs s x < 2 ^ 64 ∧ tickUs s x = 0 :=
  ⟨Nat.mod_lt _ (by decide), Nat.mod_lt _ (by decide), rfl⟩

example : tickMs 18446744073709552 0 = 384 ∧ timeMs 18446744073709552 0 = 384 := by decide +kernel

/-- The text of the time fits its 24-byte array exactly: one character more in the date (a year of five digits) is stored beyond its end. -/
theorem C140_year_10000 (date : List Nat) (nowMs : Nat) (junk : List Nat) (len : Int) (hd : 24 ≤ date.length) (hj : junk.length = 24) (hl : len ≠ 0) :
    timeStr date nowMs junk len = none := by
  unfold timeStr store
  have : ¬ (0 + date.length + 1 ≤ junk.length) := by omega
  simp [hl]
  omega

example : (List.replicate 24 49 : List Nat).length = 24 := by decide +kernel

end Verif.SysApi
