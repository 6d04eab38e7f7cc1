import Verif.PortMem

/-! Properties of `PortMem`: C190, C191. -/

namespace Verif.PortMem

/-- Specification: what the report of the memory in use should say: the number of blocks the user has and the sum of the sizes asked for. -/
def count (L : List Blk) : Int := L.length
def total (L : List Blk) : Int := (L.map (fun b => (b.size : Int))).sum

structure Inv (s : St) : Prop where
  ok : s.aborted = false
  mem : s.smashed = false
  good : ∀ b ∈ s.live, b.good = true
  usage : s.usage = total s.live
  slices : s.slices = count s.live
  cap : ∀ b ∈ s.live, b.cap = b.size + mask

theorem init_inv : Inv St.init := by
  constructor <;> simp [St.init, total, count]

theorem total_cons (b : Blk) (L : List Blk) : total (b :: L) = b.size + total L := by simp [total]
theorem count_cons (b : Blk) (L : List Blk) : count (b :: L) = count L + 1 := by simp [count]

theorem erase_total (p : Blk → Bool) (L : List Blk) (b : Blk) (h : L.find? p = some b) : total L = b.size + total (L.eraseP p) ∧ count L = count (L.eraseP p) + 1 := by
  induction L with
  | nil => cases h
  | cons x L ih =>
    by_cases hp : p x = true
    · rw [List.find?_cons_of_pos hp] at h; cases h
      rw [List.eraseP_cons_of_pos hp]; exact ⟨total_cons _ _, count_cons _ _⟩
    · rw [List.find?_cons_of_neg hp] at h
      rw [List.eraseP_cons_of_neg hp, total_cons, total_cons, count_cons, count_cons]
      have := ih h; omega

/-- The calls the claim speaks of: the sizes leave room for the header in a size_t, products do not overflow, and realloc does not fail. -/
def Fine (W : Nat) : Op → Prop
  | .malloc n _ => n + mask < W
  | .calloc k n _ => k * n + mask < W
  | .realloc _ n ans => n + mask < W ∧ (n ≠ 0 → ans ≠ none)
  | .free _ => True

theorem mask_inv (W : Nat) (s : St) (hi : Inv s) (a n : Nat) (hn : n + mask < W) : Inv (maskBlk s a ((n + mask) % W) n) := by
  obtain ⟨h1, h2, h3, h4, h5, h6⟩ := hi
  rw [Nat.mod_eq_of_lt hn]
  constructor
  · exact h1
  · simp [maskBlk, h2]
  · intro b hb; simp only [maskBlk, List.mem_cons] at hb; rcases hb with rfl | hb
    · rfl
    · exact h3 b hb
  · simp only [maskBlk, total_cons]; omega
  · simp only [maskBlk, count_cons]; omega
  · intro b hb; simp only [maskBlk, List.mem_cons] at hb; rcases hb with rfl | hb
    · rfl
    · exact h6 b hb

theorem malloc_inv (W : Nat) (s s' : St) (hi : Inv s) (n : Nat) (hn : n + mask < W) (ans : Option Nat) (h : doMalloc W s n ans = some s') : Inv s' := by
  cases ans with
  | none => cases h; exact hi
  | some a =>
    simp only [doMalloc] at h
    split at h
    · cases h; exact mask_inv W s hi a n hn
    · cases h

theorem drop_inv (s : St) (hi : Inv s) (a : Nat) (b : Blk) (hf : s.live.find? (fun b => b.addr = a) = some b) :
    (unmask s b).aborted = false ∧ Inv ⟨s.live.eraseP (fun b => b.addr = a), (unmask s b).usage, (unmask s b).slices, false, (unmask s b).smashed⟩ := by
  obtain ⟨h1, h2, h3, h4, h5, h6⟩ := hi
  have hg := h3 b (List.mem_of_find?_eq_some hf)
  obtain ⟨t1, t2⟩ := erase_total _ _ _ hf
  refine ⟨by simp [unmask, hg, h1], ?_⟩
  constructor
  · rfl
  · simp [unmask, hg, h2]
  · intro x hx; exact h3 x (List.mem_of_mem_eraseP hx)
  · simp only [unmask, hg, if_true]; omega
  · simp only [unmask, hg, if_true]; omega
  · intro x hx; exact h6 x (List.mem_of_mem_eraseP hx)

theorem free_inv (s s' : St) (hi : Inv s) (a : Nat) (h : doFree s a = some s') : Inv s' := by
  simp only [doFree] at h
  split at h
  · cases h
  · rename_i b hf
    obtain ⟨h1, h2⟩ := drop_inv s hi a b hf
    rw [h1] at h
    cases h; exact h2

theorem step_inv (W : Nat) (s s' : St) (op : Op) (hf : Fine W op) (hi : Inv s) (h : step W s op = some s') : Inv s' := by
  cases op with
  | malloc n ans => simp only [step, hi.ok] at h; exact malloc_inv W s s' hi n hf ans h
  | calloc k n ans =>
    simp only [step, hi.ok] at h
    have hf' : k * n + mask < W := hf
    rw [Nat.mod_eq_of_lt (by omega)] at h
    exact malloc_inv W s s' hi _ hf ans h
  | free a => simp only [step, hi.ok] at h; exact free_inv s s' hi a h
  | realloc a n ans =>
    simp only [step, hi.ok] at h
    by_cases hn : n = 0
    · simp [hn] at h; exact free_inv s s' hi a h
    · simp only [hn, if_false, Bool.false_eq_true] at h
      cases hfi : s.live.find? (fun b => b.addr = a) with
      | none => simp only [hfi] at h; cases h
      | some b =>
        obtain ⟨h1, h2⟩ := drop_inv s hi a b hfi
        simp only [hfi, h1, Bool.false_eq_true, if_false] at h
        cases ans with
        | none => exact absurd rfl (hf.2 hn)
        | some a' =>
          simp only at h
          split at h
          · cases h; exact mask_inv W _ h2 a' n hf.1
          · cases h

theorem run_inv (W : Nat) : ∀ (ops : List Op) (s s' : St), (∀ op ∈ ops, Fine W op) → Inv s → run W s ops = some s' → Inv s' := by
  intro ops
  induction ops with
  | nil => intro s s' _ hi h; cases h; exact hi
  | cons op ops ih =>
    intro s s' hf hi h
    simp only [run] at h
    split at h
    · cases h
    · rename_i s1 h1
      exact ih s1 s' (fun o ho => hf o (List.mem_cons_of_mem _ ho)) (step_inv W s s1 op (hf op List.mem_cons_self) hi h1) h

/-- C190 as long as no realloc fails and no size overflows: the report names the number of blocks there are and the sum of the sizes asked for, every block is as large as asked for (and its header
fits), and no assertion fails. -/
theorem C190_counts_partial (W : Nat) (ops : List Op) (s : St) (hf : ∀ op ∈ ops, Fine W op) (h : run W St.init ops = some s) :
    s.aborted = false ∧ s.smashed = false ∧ s.slices = count s.live ∧ s.usage = total s.live ∧ ∀ b ∈ s.live, b.cap = b.size + mask := by
  have hi := run_inv W ops _ s hf init_inv h
  exact ⟨hi.ok, hi.mem, hi.slices, hi.usage, hi.cap⟩

/-- The header that is kept before every block: a multiple of 16 bytes, large enough for the two words it holds and no larger than it has to be. -/
theorem C190_header : mask % 16 = 0 ∧ 8 ≤ mask ∧ mask < 8 + 16 := by decide

/-- C190: after any such history, a realloc to a fresh block succeeds; the old block is gone, the new one is there with the new size, and nothing else has changed. -/
theorem C190_realloc_partial (W : Nat) (ops : List Op) (s : St) (hf : ∀ op ∈ ops, Fine W op) (h : run W St.init ops = some s) (b : Blk) (n a' : Nat) (hn : n ≠ 0) (hw : n + mask < W)
    (hb : s.live.find? (fun x => x.addr = b.addr) = some b) (ha : ∀ x ∈ s.live, x.addr ≠ a') :
    ∃ s1, step W s (.realloc b.addr n (some a')) = some s1 ∧ s1.live = ⟨a', n + mask, n, true⟩ :: s.live.eraseP (fun x => x.addr = b.addr) ∧ s1.slices = s.slices ∧ s1.usage = s.usage - b.size + n := by
  obtain ⟨h1, h2, h3, h4, h5⟩ := C190_counts_partial W ops s hf h
  have hg : b.good = true := (run_inv W ops _ s hf init_inv h).good b (List.mem_of_find?_eq_some hb)
  have hfr : ∀ x ∈ s.live.eraseP (fun x => decide (x.addr = b.addr)), x.addr ≠ a' := fun x hx => ha x (List.mem_of_mem_eraseP hx)
  refine ⟨_, by simp only [step, h1, hn, hb, unmask, hg, Bool.false_eq_true, if_false, if_true, fresh]; rw [if_pos (by simpa using hfr)], ?_, ?_, ?_⟩
  · simp [maskBlk, Nat.mod_eq_of_lt hw]
  · simp only [maskBlk]; omega
  · simp only [maskBlk]

/-- C190 is false of the code: after any such history, a realloc that fails (and leaves the user the block, as it must) takes it off the report… -/
theorem C190_failed_realloc (W : Nat) (ops : List Op) (s : St) (hf : ∀ op ∈ ops, Fine W op) (h : run W St.init ops = some s) (b : Blk) (n : Nat) (hn : n ≠ 0)
    (hb : s.live.find? (fun x => x.addr = b.addr) = some b) :
    ∃ s1, step W s (.realloc b.addr n none) = some s1 ∧ count s1.live = count s.live ∧ s1.slices = count s.live - 1 ∧ s1.usage = total s.live - b.size ∧
      -- …and the next call with it, freeing it say, stops the program
      ∃ s2, step W s1 (.free b.addr) = some s2 ∧ s2.aborted = true := by
  obtain ⟨h1, h2, h3, h4, h5⟩ := C190_counts_partial W ops s hf h
  have hg : b.good = true := by
    exact (run_inv W ops _ s hf init_inv h).good b (List.mem_of_find?_eq_some hb)
  obtain ⟨t1, t2⟩ := erase_total _ _ _ hb
  refine ⟨_, by simp [step, h1, hn, hb, unmask, hg]; rfl, ?_, ?_, ?_, ?_⟩
  · simp only [count_cons]; omega
  · simp only []; omega
  · simp only []; omega
  · simp [step, doFree, h1, unmask]

/-- C190 is false of the code: a size that does not leave room for the header gives a block in which not even the header fits. -/
theorem C190_huge (W n a : Nat) (h1 : W ≤ n + mask) (h2 : n < W) (h3 : mask ≤ W) : ∃ s, run W St.init [.malloc n (some a)] = some s ∧ s.smashed = true := by
  refine ⟨_, by simp [run, step, St.init, doMalloc, fresh]; rfl, ?_⟩
  have : (n + mask) % W < mask := by
    rw [show n + mask = (n + mask - W) + W by omega, Nat.add_mod_right, Nat.mod_eq_of_lt (by omega)]; omega
  simp [maskBlk, this]

/-- Three blocks, one made larger, one freed; then a realloc that fails. -/
example : (run (2 ^ 32) St.init [.malloc 10 (some 1), .calloc 3 4 (some 2), .malloc 5 none, .realloc 1 20 (some 3), .malloc 7 (some 1), .free 2]).map (fun s => (s.slices, s.usage, count s.live, total s.live)) =
    some (2, 27, 2, 27) := by decide +kernel
example : (run (2 ^ 32) St.init [.malloc 10 (some 1), .realloc 1 20 none]).map (fun s => (s.slices, s.usage, count s.live)) = some (0, 0, 1) := by decide +kernel
example : (run (2 ^ 32) St.init [.malloc 4294967290 (some 1)]).map (·.smashed) = some true := by decide +kernel

/-! ## C191: calloc -/

/-- Specification: calloc gives `k * n` zero bytes or nothing. -/
def CallocRight (W avail k n : Nat) (r : Option (List Nat)) : Prop :=
  match r with
  | none => ¬ (k * n < W ∧ k * n ≤ avail)
  | some bs => bs = List.replicate (k * n) 0

/-- C191 where the product is a size_t, on every port; and always on those that leave the product to the platform. -/
theorem C191_calloc_partial (p : Port) (W avail k n : Nat) (h : k * n < W ∨ multiplies p = false) : CallocRight W avail k n (calloc p W avail k n) := by
  by_cases hm : multiplies p = true
  · have hk : k * n < W := by
      rcases h with h | h
      · exact h
      · rw [hm] at h; cases h
    simp only [calloc, hm, if_true, Nat.mod_eq_of_lt hk]
    by_cases ha : k * n ≤ avail
    · simp [ha, CallocRight]
    · simp [ha, CallocRight]
  · simp only [calloc, hm, Bool.false_eq_true, if_false]
    by_cases ha : k * n < W ∧ k * n ≤ avail
    · rw [if_pos ha]; rfl
    · rw [if_neg ha]; exact ha

/-- C191 on the ports named here: always. -/
theorem C191_ten_ports_partial (p : Port) (hp : p ∈ [Port.linux, .darwin, .harmony, .esp32, .tw82x, .windows, .xr872, .asr1606, .ac791n, .ipro7]) (W avail k n : Nat) :
    CallocRight W avail k n (calloc p W avail k n) := by
  refine C191_calloc_partial p W avail k n (Or.inr ?_)
  simp only [List.mem_cons, List.not_mem_nil, or_false] at hp
  rcases hp with h | h | h | h | h | h | h | h | h | h <;> subst h <;> rfl

/-- C191 is false on bk725x, rtl8713 and spreadtrum: whenever the product is no size_t and its rest is to be had, the block is smaller than asked for. -/
theorem C191_overflow (p : Port) (hp : p = .bk725x ∨ p = .rtl8713 ∨ p = .spreadtrum) (W avail k n : Nat) (hW : 0 < W) (h : W ≤ k * n) (ha : k * n % W ≤ avail) :
    ∃ bs, calloc p W avail k n = some bs ∧ bs.length < k * n ∧ ¬ CallocRight W avail k n (calloc p W avail k n) := by
  have hm : multiplies p = true := by rcases hp with rfl | rfl | rfl <;> rfl
  have hc : calloc p W avail k n = some (List.replicate (k * n % W) 0) := by simp [calloc, hm, ha]
  have hlt : k * n % W < k * n := Nat.lt_of_lt_of_le (Nat.mod_lt _ hW) h
  refine ⟨_, hc, by simpa using hlt, ?_⟩
  rw [hc]
  intro e
  have := congrArg List.length e
  simp at this; omega

example : calloc .rtl8713 (2 ^ 32) 1000 65536 65537 = none ∧ calloc .rtl8713 (2 ^ 32) 1000 65536 65536 = some [] ∧ calloc .linux (2 ^ 32) 1000 65536 65536 = none ∧
    calloc .rtl8713 (2 ^ 32) 1000 2 3 = some [0, 0, 0, 0, 0, 0] := by decide +kernel

end Verif.PortMem
