import Verif.QHandle
import Verif.IdTableProps
/-!
  Property C159: the handle a pool call returns is the handle of the queue it chose.
-/
namespace Verif.QHandle
open Verif.IdTable (State Live run cycles create Inv inv_run inv_init get_iff lifeOf lifeOf_toNat mkId mkId_toNat refId_mkId)

/-- facts about the handle of a live queue: it was the `i`-th creation, has a slot below 248 -/
theorem live_id {s : State} (h : Inv s) {k : Nat} {id : BitVec 32} (hl : Live s k id) :
    ∃ slot i, s.phase k = some (.live slot id) ∧ slot < 248 ∧ s.log[i]? = some (k, id) ∧ id = mkId slot (lifeOf i) := by
  obtain ⟨slot, hp⟩ := hl
  obtain ⟨i, hi, h1, h2⟩ := h.idlog k _ id hp rfl
  obtain ⟨j, hj, h3, _⟩ := h.logid i hi
  rw [h1] at h3
  have : slot < 248 := by
    have hb := h.bound k _ hp
    have := h.twf.le
    exact Nat.lt_of_lt_of_le hb this
  exact ⟨slot, i, hp, this, by rw [List.getElem?_eq_getElem hi, h1], h2⟩

/-- the number of the creation decides the sign bit of the 32-bit value -/
theorem msb_iff (slot i : Nat) (h : slot < 248) : (mkId slot (lifeOf i)).msb = decide (32767 ≤ i % 65535) := by
  rw [BitVec.msb_eq_decide, mkId_toNat _ _ (by omega), lifeOf_toNat]
  simp only [decide_eq_decide]; omega

theorem handle_low (w : Nat) (hw : 32 ≤ w) (id : BitVec 32) : ((handle w id).setWidth 16 : BitVec 16) = id.setWidth 16 := by
  apply BitVec.eq_of_toNat_eq
  have := id.isLt
  have hp : 2 ^ 32 ≤ 2 ^ w := Nat.pow_le_pow_right (by omega) hw
  simp only [handle, BitVec.toNat_setWidth]
  rw [Nat.mod_eq_of_lt (a := id.toNat) (by omega)]

theorem handle_inj (w : Nat) (hw : 32 ≤ w) (a b : BitVec 32) (h : handle w a = handle w b) : a = b := by
  have := congrArg BitVec.toNat h
  have ha := a.isLt; have hb := b.isLt
  have hp : 2 ^ 32 ≤ 2 ^ w := Nat.pow_le_pow_right (by omega) hw
  simp only [handle, BitVec.toNat_setWidth] at this
  rw [Nat.mod_eq_of_lt (a := a.toNat) (by omega), Nat.mod_eq_of_lt (a := b.toNat) (by omega)] at this
  exact BitVec.eq_of_toNat_eq this

theorem handle_back (w : Nat) (hw : 32 ≤ w) (id : BitVec 32) : ((handle w id).setWidth 32 : BitVec 32) = id := by
  apply BitVec.eq_of_toNat_eq
  have := id.isLt
  have hp : 2 ^ 32 ≤ 2 ^ w := Nat.pow_le_pow_right (by omega) hw
  simp only [handle, BitVec.toNat_setWidth]
  rw [Nat.mod_eq_of_lt (a := id.toNat) (by omega), Nat.mod_eq_of_lt this]

/-- looking up a word: it must be the handle of a live queue -/
theorem get_iff' {s : State} (hi : Inv s) (w : Nat) (hw : 32 ≤ w) (k : Nat) (h : BitVec w) :
    get s.tab h = some k ↔ ∃ id, Live s k id ∧ h = handle w id := by
  constructor
  · intro hg
    unfold get at hg
    split at hg
    · cases hg
    · split at hg
      · split at hg
        · rename_i o ho
          split at hg
          · rename_i he
            injection hg with hk
            subst hk
            exact ⟨o.id, ⟨_, (hi.slots _ _ _).1 ho⟩, he.symm⟩
          · cases hg
        · cases hg
      · cases hg
  · rintro ⟨id, hl, rfl⟩
    obtain ⟨slot, i, hp, hs, _, rfl⟩ := live_id hi hl
    have hr : ((handle w (mkId slot (lifeOf i))).setWidth 16 : BitVec 16).toInt = slot := by
      rw [handle_low w hw]
      exact refId_mkId slot (lifeOf i) (by omega)
    have hb : slot < s.tab.slots.length := hi.bound k _ hp
    unfold get
    rw [if_neg (by rw [hr]; omega), if_pos (by rw [hr]; omega)]
    simp only [hr, Int.toNat_natCast]
    rw [(hi.slots slot k _).2 hp]
    simp

theorem poolReturn_eq (w : Nat) (hw : 32 ≤ w) (id : BitVec 32) : poolReturn w (handle w id) = id.signExtend w := by
  unfold poolReturn; rw [handle_back w hw]

theorem signExtend_ne (w : Nat) (hw : 33 ≤ w) (id : BitVec 32) (hm : id.msb = true) (id' : BitVec 32) : id.signExtend w ≠ handle w id' := by
  intro he
  have h1 : (id.signExtend w).getLsbD 32 = (handle w id').getLsbD 32 := by rw [he]
  rw [BitVec.getLsbD_signExtend] at h1
  simp only [handle, BitVec.getLsbD_setWidth] at h1
  have : id'.getLsbD 32 = false := BitVec.getLsbD_of_ge _ _ (by omega)
  simp [this, hm] at h1
  omega

theorem signExtend_low (w : Nat) (hw : 32 ≤ w) (id : BitVec 32) : ((id.signExtend w).setWidth 16 : BitVec 16) = id.setWidth 16 := by
  apply BitVec.eq_of_getLsbD_eq
  intro i hi
  simp only [BitVec.getLsbD_setWidth, BitVec.getLsbD_signExtend]
  simp [hi, show i < w by omega, show i < 32 by omega]

/-! ## C159 -/

/-- C159 (handles that are not passed through an `int`). For pointers of 32 or more bits and after every history: the handle of a live queue is
    not "invalid", resolves to that queue, and no other word does; the failure value is "invalid". -/
theorem C159_direct (w : Nat) (hw : 32 ≤ w) (max : Nat) (ops : List IdTable.Op) (k : Nat) (id : BitVec 32) :
    let s := run max State.init ops
    Live s k id →
    invalid (handle w id) = false ∧ get s.tab (handle w id) = some k ∧ (∀ h : BitVec w, get s.tab h = some k → h = handle w id) ∧
    invalid (failure w) = true := by
  intro s hl
  have hi : Inv s := inv_run max ops _ inv_init
  obtain ⟨slot, i, hp, hs, _, hid⟩ := live_id hi hl
  have hr : ((handle w id).setWidth 16 : BitVec 16).toInt = slot := by
    rw [handle_low w hw, hid]
    exact refId_mkId slot (lifeOf i) (by omega)
  refine ⟨by simp only [invalid, hr]; simp, (get_iff' hi w hw k _).2 ⟨id, hl, rfl⟩, ?_, ?_⟩
  · intro h hg
    obtain ⟨id', hl', rfl⟩ := (get_iff' hi w hw k h).1 hg
    obtain ⟨slot', hp'⟩ := hl'
    rw [hp] at hp'
    cases hp'; rfl
  · unfold invalid failure
    rw [signExtend_low w hw]
    decide

/-- C159 (what holds). The value a pool call returns for the live queue it chose is that queue's handle if pointers have 32 bits, or if
    the queue was among the first 32767 of every 65535 queues ever created.
    Missing: the other queues, for which it is false (`C159_pool_broken`). -/
theorem C159_pool_partial (w : Nat) (hw : 32 ≤ w) (max : Nat) (ops : List IdTable.Op) (k i : Nat) (id : BitVec 32) :
    let s := run max State.init ops
    Live s k id → s.log[i]? = some (k, id) → (w = 32 ∨ i % 65535 < 32767) →
    poolReturn w (handle w id) = handle w id ∧ get s.tab (poolReturn w (handle w id)) = some k := by
  intro s hl hlog hc
  have hi : Inv s := inv_run max ops _ inv_init
  have he : poolReturn w (handle w id) = handle w id := by
    rw [poolReturn_eq w hw]
    rcases hc with rfl | hc
    · simp [handle, BitVec.signExtend_eq_setWidth_of_le]
    · obtain ⟨slot, i', hp, hs, hlog', hid⟩ := live_id hi hl
      obtain ⟨h1, e1⟩ := List.getElem?_eq_some_iff.1 hlog
      obtain ⟨h2, e2⟩ := List.getElem?_eq_some_iff.1 hlog'
      have := hi.keys i i' h1 h2 (by rw [e1, e2])
      subst this
      apply BitVec.signExtend_eq_setWidth_of_msb_false
      rw [hid, msb_iff slot i hs]
      simp; omega
  exact ⟨he, by rw [he]; exact (C159_direct w hw max ops k id hl).2.1⟩

/-- C159 is false of the code. With pointers of more than 32 bits, for every live queue that was created as number 32768 or later of each
    65535, the call succeeds (the value is not "invalid"), but the value returned is not the queue's handle, does not resolve to
    any queue, and no pool entry has it (aosl_mpq_free with it fails). -/
theorem C159_pool_broken (w : Nat) (hw : 33 ≤ w) (max : Nat) (ops : List IdTable.Op) (k i : Nat) (id : BitVec 32) :
    let s := run max State.init ops
    Live s k id → s.log[i]? = some (k, id) → 32767 ≤ i % 65535 →
    invalid (poolReturn w (handle w id)) = false ∧ poolReturn w (handle w id) ≠ handle w id ∧
    get s.tab (poolReturn w (handle w id)) = none ∧ ∀ ids, findEntry ids (poolReturn w (handle w id)) = false := by
  intro s hl hlog hc
  have hi : Inv s := inv_run max ops _ inv_init
  obtain ⟨slot, i', hp, hs, hlog', hid⟩ := live_id hi hl
  obtain ⟨h1, e1⟩ := List.getElem?_eq_some_iff.1 hlog
  obtain ⟨h2, e2⟩ := List.getElem?_eq_some_iff.1 hlog'
  have := hi.keys i i' h1 h2 (by rw [e1, e2])
  subst this
  have hm : id.msb = true := by rw [hid, msb_iff slot i hs]; simpa using hc
  rw [poolReturn_eq w (by omega)]
  refine ⟨?_, signExtend_ne w hw id hm id, ?_, ?_⟩
  · unfold invalid
    rw [signExtend_low w (by omega)]
    have : (id.setWidth 16 : BitVec 16).toInt = slot := by rw [hid]; exact refId_mkId slot (lifeOf i) (by omega)
    rw [this]; simp
  · cases hg : get s.tab (id.signExtend w) with
    | none => rfl
    | some k' =>
      obtain ⟨id', _, he⟩ := (get_iff' hi w (by omega) k' _).1 hg
      exact absurd he (signExtend_ne w hw id hm id')
  · intro ids
    unfold findEntry
    rw [List.any_eq_false]
    intro id' _ he
    exact signExtend_ne w hw id hm id' (beq_iff_eq.1 he).symm

/-- Such a history, for pointers of 64 bits: 32767 queues are created and destroyed, one after the other; for the next one a pool
    call returns a value that does not resolve. -/
theorem C159_after_32767 (max n : Nat) (hn : n = 32767) :
    let s := run max (run max State.init (cycles n)) (create n)
    ∃ id, Live s n id ∧ s.log[n]? = some (n, id) ∧ get s.tab (poolReturn 64 (handle 64 id)) = none ∧ get s.tab (handle 64 id) = some n := by
  intro s
  obtain ⟨hc, hlog⟩ := IdTable.cycles_clean max n
  obtain ⟨h1, h2, _, _⟩ := IdTable.cycle_clean max _ n hc
  have hr : s = run max State.init (cycles n ++ create n) := by
    simp [s, IdTable.run, List.foldl_append]
  have hl : Live s n (mkId 0 (lifeOf n)) := ⟨0, h2⟩
  have hg : s.log[n]? = some (n, mkId 0 (lifeOf n)) := by
    show (run max (run max State.init (cycles n)) (create n)).log[n]? = _
    rw [h1, List.getElem?_append_right (by rw [hc.len]; omega), hc.len]
    simp
  refine ⟨_, hl, hg, ?_, ?_⟩
  · rw [hr] at hl hg ⊢
    exact (C159_pool_broken 64 (by omega) max _ n n _ hl hg (by omega)).2.2.1
  · rw [hr] at hl ⊢
    exact (C159_direct 64 (by omega) max _ n _ hl).2.1

theorem mainReturn_live (w : Nat) (hw : 32 ≤ w) (slot i : Nat) (hs : slot < 248) :
    mainReturn w (handle w (mkId slot (lifeOf i))) = poolReturn w (handle w (mkId slot (lifeOf i))) := by
  unfold mainReturn poolReturn
  simp only [handle_back w hw]
  rw [if_neg]
  have : ((mkId slot (lifeOf i)).setWidth 16 : BitVec 16).toInt = slot := refId_mkId slot (lifeOf i) (by omega)
  rw [this]; omega

/-- C159 for aosl_mpq_main. Without a main queue it returns an invalid handle; for a live main queue it returns exactly what a pool call
    returns, so it is right and wrong for the same queues: right for 32-bit pointers or among the first 32767 of 65535 queues, otherwise it
    returns a value that is not "invalid" and resolves to no queue. -/
theorem C159_main_partial (w : Nat) (hw : 32 ≤ w) (max : Nat) (ops : List IdTable.Op) (k i : Nat) (id : BitVec 32) :
    let s := run max State.init ops
    invalid (mainReturn w (BitVec.allOnes w)) = true ∧
    (Live s k id → s.log[i]? = some (k, id) →
      ((w = 32 ∨ i % 65535 < 32767) → mainReturn w (handle w id) = handle w id) ∧
      (32 < w → 32767 ≤ i % 65535 → invalid (mainReturn w (handle w id)) = false ∧ get s.tab (mainReturn w (handle w id)) = none)) := by
  intro s
  constructor
  · have h1 : ((BitVec.allOnes w).setWidth 32 : BitVec 32) = BitVec.allOnes 32 := by
      apply BitVec.eq_of_getLsbD_eq
      intro i hi
      rw [BitVec.getLsbD_setWidth, BitVec.getLsbD_allOnes, BitVec.getLsbD_allOnes]
      simp [hi, show i < w by omega]
    have h2 : ((BitVec.allOnes 32).setWidth 16 : BitVec 16).toInt < 0 := by decide
    unfold mainReturn
    simp only [h1]
    rw [if_pos h2]
    unfold invalid
    have h3 : ((BitVec.allOnes w).setWidth 16 : BitVec 16) = BitVec.allOnes 16 := by
      apply BitVec.eq_of_getLsbD_eq
      intro i hi
      rw [BitVec.getLsbD_setWidth, BitVec.getLsbD_allOnes, BitVec.getLsbD_allOnes]
      simp [hi, show i < w by omega]
    rw [h3]; decide
  · intro hl hlog
    have hi : Inv s := inv_run max ops _ inv_init
    obtain ⟨slot, i', hp, hs, _, hid⟩ := live_id hi hl
    have he : mainReturn w (handle w id) = poolReturn w (handle w id) := by rw [hid]; exact mainReturn_live w hw slot i' hs
    rw [he]
    exact ⟨fun hc => (C159_pool_partial w hw max ops k i id hl hlog hc).1, fun hw' hc =>
      let h := C159_pool_broken w hw' max ops k i id hl hlog hc
      ⟨h.1, h.2.2.1⟩⟩

/-- C159 is false of aosl_mpq_main while the main queue is being created: the value is not "invalid", but no queue has it. -/
theorem C159_main_starting (w : Nat) (hw : 32 ≤ w) (max : Nat) (ops : List IdTable.Op) :
    let s := run max State.init ops
    invalid (mainReturn w 0) = false ∧ get s.tab (mainReturn w 0) = none := by
  intro s
  have hi : Inv s := inv_run max ops _ inv_init
  have h0 : mainReturn w 0 = 0 := by
    unfold mainReturn
    have : (BitVec.signExtend w (0 : BitVec 32)) = 0 := by
      rw [BitVec.signExtend_eq_setWidth_of_msb_false (by decide)]; simp
    simpa using this
  rw [h0]
  refine ⟨by simp [invalid], ?_⟩
  cases hg : get s.tab (0 : BitVec w) with
  | none => rfl
  | some k =>
    obtain ⟨id, hl, he⟩ := (get_iff' hi w hw k _).1 hg
    obtain ⟨slot, i, hp, hs, _, hid⟩ := live_id hi hl
    have hz : handle w id = handle w 0 := by rw [← he]; simp [handle]
    have := congrArg BitVec.toNat (handle_inj w hw _ _ hz)
    rw [hid, mkId_toNat _ _ (by omega), lifeOf_toNat] at this
    simp at this
    omega

/-- the first queue: the value returned is its handle -/
example (max : Nat) : let s := run max State.init (cycles 0 ++ create 0)
    ∃ id, Live s 0 id ∧ s.log[0]? = some (0, id) := by
  intro s
  obtain ⟨h1, h2, _, _⟩ := IdTable.cycle_clean max _ 0 (IdTable.cycles_clean max 0).1
  exact ⟨mkId 0 (lifeOf 0), ⟨0, h2⟩, by
    show (run max State.init (create 0)).log[0]? = _
    have : (run max State.init (create 0)).log = _ := h1
    rw [this]; rfl⟩

end Verif.QHandle
