import Verif.IdTable
import Verif.BitmapProps
/-!
  Properties C18–C20, C37: handles.
-/
namespace Verif.IdTable
open Verif.Bitmap (Bitmap bitAt WF)

/-! ## Words -/

theorem mkId_toNat (slot : Nat) (l : BitVec 16) (h : slot < 256) : (mkId slot l).toNat = 65536 * l.toNat + slot := by
  have h1 : ((BitVec.ofNat 16 slot).signExtend 32).toNat = slot := by
    rw [BitVec.signExtend_eq_setWidth_of_msb_false]
    · simp; omega
    · rw [BitVec.msb_eq_decide]; simp; omega
  have h2 : (l.setWidth 32 <<< 16 : BitVec 32).toNat = l.toNat <<< 16 := by
    have := l.isLt
    rw [BitVec.toNat_shiftLeft, BitVec.toNat_setWidth, Nat.mod_eq_of_lt (a := l.toNat) (by omega),
      Nat.mod_eq_of_lt (by rw [Nat.shiftLeft_eq]; omega)]
  rw [mkId, BitVec.toNat_or, h1, h2, ← Nat.shiftLeft_add_eq_or_of_lt (by omega), Nat.shiftLeft_eq]
  omega

theorem refId_mkId (slot : Nat) (l : BitVec 16) (h : slot < 256) : refId (mkId slot l) = slot := by
  unfold refId
  rw [BitVec.truncate_eq_setWidth, BitVec.toInt_eq_toNat_cond, BitVec.toNat_setWidth, mkId_toNat _ _ h]
  rw [if_pos (by omega)]; omega

theorem mkId_inj {s s' : Nat} {l l' : BitVec 16} (h : s < 256) (h' : s' < 256) (e : mkId s l = mkId s' l') :
    s = s' ∧ l = l' := by
  have := congrArg BitVec.toNat e
  rw [mkId_toNat _ _ h, mkId_toNat _ _ h'] at this
  refine ⟨by omega, BitVec.eq_of_toNat_eq (by omega)⟩

/-- life id of the n-th creation -/
def lifeOf (n : Nat) : BitVec 16 := BitVec.ofNat 16 (1 + n % 65535)

theorem lifeOf_toNat (n : Nat) : (lifeOf n).toNat = 1 + n % 65535 := by
  simp [lifeOf]; omega

theorem nextLife_lifeOf (n : Nat) : nextLife (lifeOf n) = lifeOf (n + 1) := by
  have h := lifeOf_toNat n
  have h' := lifeOf_toNat (n + 1)
  unfold nextLife
  have h1 : (lifeOf n + 1).toNat = (2 + n % 65535) % 65536 := by
    rw [BitVec.toNat_add, h]; simp; omega
  split
  · rename_i hz
    have := congrArg BitVec.toNat hz
    rw [h1] at this
    apply BitVec.eq_of_toNat_eq
    rw [h']
    simp at this ⊢; omega
  · rename_i hz
    have hne : (2 + n % 65535) % 65536 ≠ 0 := by
      intro hc; apply hz; apply BitVec.eq_of_toNat_eq; rw [h1, hc]; rfl
    apply BitVec.eq_of_toNat_eq
    rw [h1, h']; omega

theorem lifeOf_eq {n m : Nat} (h : lifeOf n = lifeOf m) : n % 65535 = m % 65535 := by
  have := congrArg BitVec.toNat h
  rw [lifeOf_toNat, lifeOf_toNat] at this; omega

/-! ## The table -/

structure TWF (t : Tab) : Prop where
  wf : WF t.bits
  cnt : t.bits.cnt = t.slots.length
  le : t.slots.length ≤ 248
  mod : t.slots.length % 8 = 0

theorem take_spec (t : Tab) (h : TWF t) :
    (∃ r, r < t.slots.length ∧ bitAt t.bits.arr r = false ∧
      ∃ t', t.take t.bits.findFirstZero = (.ok r, t') ∧ TWF t' ∧ t'.slots = t.slots ∧ t'.life = t.life ∧
        ∀ j, bitAt t'.bits.arr j = (if j = r then true else bitAt t.bits.arr j)) ∨
    (t.bits.findFirstZero = -1 ∧ ∀ j < t.slots.length, bitAt t.bits.arr j = true) := by
  have hf := Bitmap.findFirstZero_spec h.wf
  rw [h.cnt] at hf
  rcases hf with ⟨r, e1, e2, e3, _⟩ | hf
  · left
    refine ⟨r, e2, e3, { t with bits := t.bits.set r }, ?_, ?_, rfl, rfl, ?_⟩
    · simp only [Tab.take, e1]
      rw [if_neg (by omega)]; simp
    · have hle := h.le
      obtain ⟨g1, g2, g3⟩ := Bitmap.exec_spec h.wf (.set r) (show r < 256 by omega)
      exact ⟨g1, by rw [← h.cnt]; exact g2, h.le, h.mod⟩
    · have hle := h.le
      obtain ⟨g1, g2, g3⟩ := Bitmap.exec_spec h.wf (.set r) (show r < 256 by omega)
      intro j
      have := g3 j
      simp only [Bitmap.exec, Bitmap.Spec.step] at this
      rw [this, h.cnt]
      by_cases hj : j = r
      · simp [hj, e2]
      · simp [hj]
  · right; exact hf

theorem copy_spec (t : Tab) (h : TWF t) (nb : Bitmap) (hlt : t.slots.length < 248) (hn : Bitmap.create (t.slots.length + 8) = some nb) :
    ∃ nb', nb.copy t.bits = .val nb' ∧ TWF { t with bits := nb', slots := t.slots ++ List.replicate 8 none } ∧
      ∀ j, bitAt nb'.arr j = bitAt t.bits.arr j := by
  obtain ⟨w, c, z⟩ := Bitmap.wf_create hn
  have hmod := h.mod
  rw [Nat.mod_eq_of_lt (by omega)] at c
  have hl1 : nb.arr.length = t.slots.length / 8 + 1 := by rw [w.len, c, Bitmap.arrCnt]; omega
  have hl2 : t.bits.arr.length = t.slots.length / 8 := by rw [h.wf.len, h.cnt, Bitmap.arrCnt]; omega
  have hbit : ∀ j, bitAt (t.bits.arr ++ nb.reset.arr.drop t.bits.arr.length) j = bitAt t.bits.arr j := by
    intro j
    rw [Bitmap.bitAt_append]
    have hd0 : ∀ k, bitAt (nb.reset.arr.drop t.bits.arr.length) k = false := by
      intro k
      simp only [Bitmap.reset, List.drop_replicate]
      exact Bitmap.bitAt_replicate _ _
    rw [hd0]
    by_cases hj : j < 8 * t.bits.arr.length
    · simp [hj]
    · have := h.wf.pad j (by rw [h.cnt]; omega)
      simp [hj, this]
  refine ⟨{ nb with arr := t.bits.arr ++ nb.reset.arr.drop t.bits.arr.length }, ?_, ?_, hbit⟩
  · unfold Bitmap.copy
    rw [if_neg (by rw [c, h.cnt]; omega), if_neg (by simp [Bitmap.reset]; omega)]
  · refine ⟨⟨w.pos, w.lt, ?_, ?_⟩, by simp [c], by simp; omega, by simp; omega⟩
    · simp [Bitmap.reset, c, Bitmap.arrCnt]; omega
    · intro j hj
      rw [hbit]
      exact h.wf.pad j (by rw [h.cnt]; simp [c] at hj; omega)

theorem getD_pad (l : List (Option Obj)) (n i : Nat) : (l ++ List.replicate n none).getD i none = l.getD i none := by
  simp only [List.getD_eq_getElem?_getD, List.getElem?_append]
  split
  · rfl
  · rename_i h
    rw [List.getElem?_eq_none (by omega : l.length ≤ i)]
    simp only [List.getElem?_replicate]
    split <;> simp

/-- outcome of an allocation -/
theorem alloc_spec (max : Nat) (mem : Bool) (t : Tab) (h : TWF t) :
    (∃ r t', t.alloc max mem = (.ok r, t') ∧ TWF t' ∧ r < t'.slots.length ∧ bitAt t.bits.arr r = false ∧ t'.life = t.life ∧
        t.slots.length ≤ t'.slots.length ∧
        (∀ i, t'.slots.getD i none = t.slots.getD i none) ∧
        ∀ j, bitAt t'.bits.arr j = (if j = r then true else bitAt t.bits.arr j)) ∨
    ((t.alloc max mem = (.enomem, t) ∨ t.alloc max mem = (.eoverflow, t)) ∧
      (∀ j < t.slots.length, bitAt t.bits.arr j = true) ∧ (mem = false ∨ t.slots.length = 248 ∨ max ≤ t.slots.length)) := by
  unfold Tab.alloc
  simp only
  rcases take_spec t h with ⟨r, hr, hb, t', e1, e2, e3, e4, e5⟩ | ⟨hf, hall⟩
  · left
    have hpos : ¬ t.bits.findFirstZero < 0 := by
      intro hneg; simp only [Tab.take, if_pos hneg] at e1; simp at e1
    rw [if_neg hpos]
    exact ⟨r, t', e1, e2, by rw [e3]; exact hr, hb, e4, by rw [e3]; exact Nat.le_refl _, by intro i; rw [e3], e5⟩
  · rw [if_pos (by omega)]
    by_cases hmax : t.slots.length ≥ max
    · right; rw [if_pos hmax]; exact ⟨Or.inr rfl, hall, Or.inr (Or.inr hmax)⟩
    · rw [if_neg hmax]
      cases mem with
      | false => right; simp; exact fun j hj => hall j hj
      | true =>
        simp only [Bool.true_eq_false, if_false]
        by_cases h248 : t.slots.length = 248
        · right
          have : Bitmap.create (t.slots.length + 8) = none := by rw [h248]; rfl
          rw [this]
          exact ⟨Or.inl rfl, hall, Or.inr (Or.inl h248)⟩
        · left
          have hlt : t.slots.length < 248 := by have := h.le; omega
          cases hc : Bitmap.create (t.slots.length + 8) with
          | none =>
            exfalso
            unfold Bitmap.create at hc
            simp at hc; omega
          | some nb =>
            obtain ⟨nb', c1, c2, c3⟩ := copy_spec t h nb hlt hc
            simp only [c1]
            rcases take_spec _ c2 with ⟨r, hr, hb, t', e1, e2, e3, e4, e5⟩ | ⟨_, hall'⟩
            · refine ⟨r, t', e1, e2, by rw [e3]; exact hr, by rw [← c3]; exact hb, e4, ?_, ?_, ?_⟩
              · rw [e3]; simp
              · intro i; rw [e3]; exact getD_pad _ _ _
              · intro j; rw [e5 j, c3 j]
            · exfalso
              have := hall' t.slots.length (by simp)
              simp only [c3] at this
              have h2 := h.wf.pad t.slots.length (by rw [h.cnt]; omega)
              rw [h2] at this; simp at this

/-! ## The invariant -/

/-- The slot an object occupies, from the reservation to the release. -/
def Phase.occ : Phase → Option Nat
  | .reserved s | .live s _ | .removed s _ | .dead s _ => some s
  | .freed _ _ => none

def Phase.slot : Phase → Nat
  | .reserved s | .live s _ | .removed s _ | .dead s _ | .freed s _ => s

def Phase.id? : Phase → Option (BitVec 32)
  | .reserved _ => none
  | .live _ i | .removed _ i | .dead _ i | .freed _ i => some i

def dtCount : Option Phase → Nat
  | some (.dead _ _) | some (.freed _ _) => 1
  | _ => 0

def Occ (s : State) (k slot : Nat) : Prop := ∃ p, s.phase k = some p ∧ p.occ = some slot

structure Inv (s : State) : Prop where
  ok : s.aborted = false
  twf : TWF s.tab
  bit : ∀ j, bitAt s.tab.bits.arr j = true ↔ ∃ k, Occ s k j
  uniq : ∀ k k' j, Occ s k j → Occ s k' j → k = k'
  bound : ∀ k p, s.phase k = some p → p.slot < s.tab.slots.length
  slots : ∀ j k id, s.tab.slots.getD j none = some ⟨k, id⟩ ↔ s.phase k = some (.live j id)
  life : s.tab.life = lifeOf s.log.length
  idlog : ∀ k p id, s.phase k = some p → p.id? = some id → ∃ i : Nat, ∃ h : i < s.log.length, s.log[i] = (k, id) ∧ id = mkId p.slot (lifeOf i)
  logid : ∀ i (h : i < s.log.length), ∃ j, j < 248 ∧ (s.log[i]).2 = mkId j (lifeOf i) ∧ ∃ p, s.phase (s.log[i]).1 = some p ∧ p.id? = some (s.log[i]).2
  keys : ∀ i i' (h : i < s.log.length) (h' : i' < s.log.length), (s.log[i]).1 = (s.log[i']).1 → i = i'
  /-- an object in the table was created after all others that ever had its slot -/
  last : ∀ k j id i (h : i < s.log.length), s.phase k = some (.live j id) → (s.log[i]) = (k, id) →
    ∀ i' (h' : i' < s.log.length), refId (s.log[i']).2 = j → i' ≤ i
  dt : ∀ k, s.dtors k = dtCount (s.phase k)

theorem occ_of_live {s : State} {k j : Nat} {id : BitVec 32} (h : s.phase k = some (.live j id)) : Occ s k j := ⟨_, h, rfl⟩

theorem inv_init : Inv State.init := by
  have hb : ∀ j, bitAt State.init.tab.bits.arr j = false := by
    intro j; exact Bitmap.bitAt_replicate 1 j
  refine ⟨rfl, ⟨⟨by decide, by decide, rfl, fun i _ => hb i⟩, rfl, by decide, by decide⟩, ?_, ?_, ?_, ?_, rfl, ?_, ?_, ?_, ?_, ?_⟩
  · intro j; rw [hb j]; simp [Occ, State.init]
  · rintro k k' j ⟨p, hp, _⟩; simp [State.init] at hp
  · intro k p hp; simp [State.init] at hp
  · intro j k id
    have : State.init.tab.slots.getD j none = none := by
      simp only [State.init, Tab.init, List.getD_eq_getElem?_getD, List.getElem?_replicate]
      split <;> rfl
    rw [this]; simp [State.init]
  · intro k p id hp; simp [State.init] at hp
  · intro i h; simp [State.init] at h
  · intro i i' h; simp [State.init] at h
  · intro k j id i h; simp [State.init] at h
  · intro k; simp [State.init, dtCount]

/-- A step that only moves one object to a later phase with the same slot and handle, not occupying more. -/
theorem inv_reserve (max : Nat) (s : State) (h : Inv s) (k : Nat) (mem : Bool) : Inv (s.step max (.reserve k mem)) := by
  simp only [State.step]
  cases hp : s.phase k with
  | some p => exact h
  | none =>
    simp only
    rcases alloc_spec max mem s.tab h.twf with ⟨r, t', e, tw, hr, hb, hl, hlen, hsl, hbits⟩ | ⟨e, _, _⟩
    · rw [e]
      simp only
      have hnk : ∀ k', Occ s k' r → False := by
        intro k' hk
        have := (h.bit r).2 ⟨k', hk⟩
        rw [hb] at this; simp at this
      have hocc : ∀ k' j, Occ { s with tab := t', phase := upd s.phase k (some (.reserved r)) } k' j ↔
          (k' = k ∧ j = r) ∨ (k' ≠ k ∧ Occ s k' j) := by
        intro k' j
        by_cases hk : k' = k
        · subst hk; simp [Occ, upd, Phase.occ]; exact eq_comm
        · simp [Occ, upd, hk]
      refine ⟨h.ok, tw, ?_, ?_, ?_, ?_, ?_, ?_, ?_, h.keys, ?_, ?_⟩
      · intro j
        rw [hbits j]
        simp only [hocc]
        by_cases hj : j = r
        · simp [hj]
        · simp only [hj, if_false, h.bit j]
          constructor
          · rintro ⟨k', hk'⟩
            refine ⟨k', Or.inr ⟨?_, hk'⟩⟩
            intro hkk; subst hkk
            obtain ⟨p, hp', _⟩ := hk'
            rw [hp] at hp'; simp at hp'
          · rintro ⟨k', hk' | hk'⟩
            · exact absurd hk'.2 (by simp)
            · exact ⟨k', hk'.2⟩
      · intro k1 k2 j h1 h2
        rw [hocc] at h1 h2
        rcases h1 with ⟨a, b⟩ | ⟨a, b⟩ <;> rcases h2 with ⟨c, d⟩ | ⟨c, d⟩
        · rw [a, c]
        · subst b; exact (hnk _ d).elim
        · subst d; exact (hnk _ b).elim
        · exact h.uniq _ _ _ b d
      · intro k' p hp'
        simp only [upd] at hp'
        split at hp'
        · simp at hp'; subst hp'; exact hr
        · have := h.bound k' p hp'; simp only; omega
      · intro j k' id
        simp only [hsl j, upd]
        rw [h.slots]
        split
        · rename_i hk; subst hk; simp [hp]
        · rfl
      · simpa [hl] using h.life
      · intro k' p id hp' hid
        simp only [upd] at hp'
        split at hp'
        · simp at hp'; subst hp'; simp [Phase.id?] at hid
        · exact h.idlog k' p id hp' hid
      · intro i hi
        obtain ⟨j, h1, h2, p, h3, h4⟩ := h.logid i hi
        refine ⟨j, h1, h2, p, ?_, h4⟩
        simp only [upd]
        rw [if_neg]
        · exact h3
        · intro hk; rw [hk, hp] at h3; simp at h3
      · intro k' j id i hi hph
        simp only [upd] at hph
        split at hph
        · simp at hph
        · exact h.last k' j id i hi hph
      · intro k'
        have := h.dt k'
        simp only [upd]
        by_cases hk : k' = k
        · subst hk; rw [hp] at this; simpa [dtCount] using this
        · rw [if_neg hk]; exact this
    · rcases e with e | e <;> rw [e] <;> exact h

theorem getD_set' {α : Type} (l : List α) (i j : Nat) (v d : α) (hi : i < l.length) :
    (l.set i v).getD j d = if j = i then v else l.getD j d := by
  simp only [List.getD_eq_getElem?_getD, List.getElem?_set]
  by_cases h : i = j
  · subst h; simp [hi]
  · have : ¬ j = i := fun e => h e.symm
    simp [h, this]

theorem inv_install (max : Nat) (s : State) (h : Inv s) (k : Nat) : Inv (s.step max (.install k)) := by
  simp only [State.step]
  cases hp : s.phase k with
  | none => exact h
  | some p =>
    cases p with
    | live _ _ => exact h
    | removed _ _ => exact h
    | dead _ _ => exact h
    | freed _ _ => exact h
    | reserved slot =>
      simp only
      have hbnd : slot < s.tab.slots.length := h.bound k _ hp
      have hfree : s.tab.slots.getD slot none = none := by
        cases hg : s.tab.slots.getD slot none with
        | none => rfl
        | some o =>
          obtain ⟨k', id⟩ := o
          have hl := (h.slots slot k' id).1 hg
          have := h.uniq k k' slot ⟨_, hp, rfl⟩ ⟨_, hl, rfl⟩
          subst this
          rw [hp] at hl; simp at hl
      have hle := h.twf.le
      have e : s.tab.install slot k = some (mkId slot s.tab.life,
          { s.tab with slots := s.tab.slots.set slot (some ⟨k, mkId slot s.tab.life⟩), life := nextLife s.tab.life }) := by
        unfold Tab.install
        rw [if_neg (by omega), hfree]
      rw [e]
      simp only
      have hlife := h.life
      have hid : refId (mkId slot s.tab.life) = slot := refId_mkId _ _ (by omega)
      have hknot : ∀ i (hi : i < s.log.length), (s.log[i]).1 ≠ k := by
        intro i hi hk
        obtain ⟨j, h1, h2, p, h3, h4⟩ := h.logid i hi
        rw [hk, hp] at h3
        simp at h3; subst h3; simp [Phase.id?] at h4
      have hocc : ∀ k' j, (∃ p, upd s.phase k (some (.live slot (mkId slot s.tab.life))) k' = some p ∧ p.occ = some j) ↔ Occ s k' j := by
        intro k' j
        by_cases hk : k' = k
        · subst hk
          simp only [upd, if_true, Occ, hp]
          simp [Phase.occ]
        · simp [Occ, upd, hk]
      refine ⟨h.ok, ⟨h.twf.wf, by simpa using h.twf.cnt, by simpa using h.twf.le, by simpa using h.twf.mod⟩, ?_, ?_, ?_, ?_, ?_, ?_, ?_, ?_, ?_, ?_⟩
      · intro j
        simp only [Occ, hocc]
        exact h.bit j
      · intro k1 k2 j h1 h2
        simp only [Occ, hocc] at h1 h2
        exact h.uniq _ _ _ h1 h2
      · intro k' p hp'
        simp only [upd] at hp'
        simp only [List.length_set]
        split at hp'
        · simp at hp'; subst hp'; exact hbnd
        · exact h.bound k' p hp'
      · intro j k' id
        simp only [getD_set' _ _ _ _ _ hbnd, upd]
        by_cases hj : j = slot
        · subst hj
          simp only [if_true, Option.some.injEq, Obj.mk.injEq]
          by_cases hk : k' = k
          · subst hk; simp
          · simp only [hk, if_false]
            constructor
            · rintro ⟨a, _⟩; exact absurd a.symm hk
            · intro hl
              exact absurd (h.uniq k' k j ⟨_, hl, rfl⟩ ⟨_, hp, rfl⟩) hk
        · simp only [hj, if_false]
          rw [h.slots]
          by_cases hk : k' = k
          · subst hk; rw [hp]
            simp; intro hc; exact absurd hc.symm hj
          · simp [hk]
      · simp only [List.length_append, List.length_cons, List.length_nil]
        rw [hlife, nextLife_lifeOf]
      · intro k' p id hp' hid'
        simp only [upd] at hp'
        split at hp'
        · rename_i hk; subst hk
          simp at hp'; subst hp'
          simp [Phase.id?] at hid'
          subst hid'
          exact ⟨s.log.length, by simp, by simp, by rw [hlife]; rfl⟩
        · obtain ⟨i, hi, h1, h2⟩ := h.idlog k' p id hp' hid'
          exact ⟨i, by simp; omega, by rw [List.getElem_append_left hi]; exact h1, h2⟩
      · intro i hi
        by_cases hlast : i < s.log.length
        · obtain ⟨j, h1, h2, p, h3, h4⟩ := h.logid i hlast
          simp only [List.getElem_append_left hlast]
          refine ⟨j, h1, h2, p, ?_, h4⟩
          simp only [upd]
          rw [if_neg (hknot i hlast)]
          exact h3
        · simp at hi
          have : i = s.log.length := by omega
          subst this
          simp only [List.getElem_concat_length]
          exact ⟨slot, by omega, by rw [hlife], .live slot (mkId slot s.tab.life), by simp [upd], rfl⟩
      · intro i i' hi hi' he
        by_cases h1 : i < s.log.length <;> by_cases h2 : i' < s.log.length
        · simp only [List.getElem_append_left h1, List.getElem_append_left h2] at he
          exact h.keys i i' h1 h2 he
        · simp at hi'
          have : i' = s.log.length := by omega
          subst this
          simp only [List.getElem_append_left h1, List.getElem_concat_length] at he
          exact absurd he (hknot i h1)
        · simp at hi
          have : i = s.log.length := by omega
          subst this
          simp only [List.getElem_append_left h2, List.getElem_concat_length] at he
          exact absurd he.symm (hknot i' h2)
        · simp at hi hi'; omega
      · intro k' j id i hi hph hlog i' hi' href
        simp only [List.length_append, List.length_cons, List.length_nil] at hi'
        by_cases h1 : i < s.log.length
        · simp only [List.getElem_append_left h1] at hlog
          simp only [upd] at hph
          split at hph
          · rename_i hk; subst hk
            exact absurd (by rw [hlog]) (hknot i h1)
          · rename_i hk
            by_cases h2 : i' < s.log.length
            · simp only [List.getElem_append_left h2] at href
              exact h.last k' j id i h1 hph hlog i' h2 href
            · have : i' = s.log.length := by omega
              subst this
              simp only [List.getElem_concat_length] at href
              rw [hid] at href
              have : slot = j := by omega
              subst this
              exact absurd (h.uniq k' k slot ⟨_, hph, rfl⟩ ⟨_, hp, rfl⟩) hk
        · simp at hi; omega
      · intro k'
        have := h.dt k'
        simp only [upd]
        by_cases hk : k' = k
        · subst hk; rw [hp] at this; simpa [dtCount] using this
        · rw [if_neg hk]; exact this

theorem refId_of {s : State} (h : Inv s) {k : Nat} {p : Phase} {id : BitVec 32} (hp : s.phase k = some p) (hid : p.id? = some id) :
    (refId id).toNat = p.slot ∧ refId id = p.slot := by
  obtain ⟨i, hi, _, e⟩ := h.idlog k p id hp hid
  have hb := h.bound k p hp
  have := h.twf.le
  rw [e, refId_mkId _ _ (by omega)]
  simp

/-- Moving an object to a later phase with the same slot and handle preserves the invariant, given the
    matching changes of table and counters. -/
theorem inv_move (s : State) (h : Inv s) (k : Nat) (p q : Phase) (t' : Tab) (d' : Nat → Nat)
    (hp : s.phase k = some p) (hs : q.slot = p.slot) (hid : ∃ id, p.id? = some id ∧ q.id? = some id)
    (hnl : ∀ j id, q ≠ .live j id)
    (htw : TWF t') (hlen : t'.slots.length = s.tab.slots.length) (hlife : t'.life = s.tab.life)
    (hbits : ∀ j, bitAt t'.bits.arr j = true ↔ (bitAt s.tab.bits.arr j = true ∧ (j = p.slot → q.occ ≠ none)))
    (hocc : p.occ ≠ none) (hqo : ∀ j, q.occ = some j → j = p.slot)
    (hsl : ∀ j k' id, t'.slots.getD j none = some ⟨k', id⟩ ↔ (s.tab.slots.getD j none = some ⟨k', id⟩ ∧ k' ≠ k))
    (hd : ∀ k', d' k' = if k' = k then dtCount (some q) else s.dtors k') :
    Inv { s with tab := t', phase := upd s.phase k (some q), dtors := d' } := by
  have hpo : p.occ = some p.slot := by
    cases p <;> simp_all [Phase.occ, Phase.slot]
  have hOcc : ∀ k' j, (∃ r, upd s.phase k (some q) k' = some r ∧ r.occ = some j) ↔
      (k' ≠ k ∧ Occ s k' j) ∨ (k' = k ∧ q.occ = some j) := by
    intro k' j
    by_cases hk : k' = k
    · subst hk; simp [upd]
    · simp [upd, hk, Occ]
  refine ⟨h.ok, htw, ?_, ?_, ?_, ?_, ?_, ?_, ?_, h.keys, ?_, ?_⟩
  · intro j
    simp only [Occ, hOcc]
    rw [hbits j, h.bit j]
    constructor
    · rintro ⟨⟨k', hk'⟩, hj⟩
      by_cases hk : k' = k
      · subst hk
        obtain ⟨r, hr, hro⟩ := hk'
        rw [hp] at hr; simp at hr; subst hr
        rw [hpo] at hro; simp at hro
        have := hj hro.symm
        cases hq : q.occ with
        | none => exact absurd hq this
        | some j' => exact ⟨k', Or.inr ⟨rfl, by rw [hqo j' hq, hro]⟩⟩
      · exact ⟨k', Or.inl ⟨hk, hk'⟩⟩
    · rintro ⟨k', ⟨hk, hk'⟩ | ⟨hk, hq⟩⟩
      · refine ⟨⟨k', hk'⟩, ?_⟩
        intro hj; subst hj
        exact absurd (h.uniq k' k _ hk' ⟨p, hp, hpo⟩) hk
      · have := hqo j hq
        subst this
        exact ⟨⟨k, p, hp, hpo⟩, fun _ => by rw [hq]; simp⟩
  · intro k1 k2 j h1 h2
    simp only [Occ, hOcc] at h1 h2
    rcases h1 with ⟨a, b⟩ | ⟨a, b⟩ <;> rcases h2 with ⟨c, d⟩ | ⟨c, d⟩
    · exact h.uniq _ _ _ b d
    · have := hqo j d; subst this
      exact absurd (h.uniq k1 k _ b ⟨p, hp, hpo⟩) a
    · have := hqo j b; subst this
      exact absurd (h.uniq k2 k _ d ⟨p, hp, hpo⟩) c
    · rw [a, c]
  · intro k' r hr
    simp only [upd] at hr
    simp only [hlen]
    split at hr
    · simp at hr; subst hr; rw [hs]; exact h.bound k p hp
    · exact h.bound k' r hr
  · intro j k' id
    simp only [hsl]
    rw [h.slots]
    by_cases hk : k' = k
    · subst hk
      simp [upd]
      exact hnl j id
    · simp [upd, hk]
  · simp only [hlife]; exact h.life
  · intro k' r id hr hrid
    simp only [upd] at hr
    split at hr
    · rename_i hk; subst hk
      simp at hr; subst hr
      obtain ⟨id', h1, h2⟩ := hid
      rw [h2] at hrid; simp at hrid; subst hrid
      rw [hs]
      exact h.idlog k' p _ hp h1
    · exact h.idlog k' r id hr hrid
  · intro i hi
    obtain ⟨j, h1, h2, r, h3, h4⟩ := h.logid i hi
    simp only [upd]
    by_cases hk : (s.log[i]).1 = k
    · rw [hk, hp] at h3
      simp at h3; subst h3
      obtain ⟨id', g1, g2⟩ := hid
      rw [g1] at h4
      exact ⟨j, h1, h2, q, by rw [if_pos hk], by rw [g2, h4]⟩
    · exact ⟨j, h1, h2, r, by rw [if_neg hk]; exact h3, h4⟩
  · intro k' j id i hi hph
    simp only [upd] at hph
    split at hph
    · simp at hph; exact absurd hph (hnl j id)
    · exact h.last k' j id i hi hph
  · intro k'
    simp only [hd, upd]
    by_cases hk : k' = k
    · rw [if_pos hk, if_pos hk]
    · rw [if_neg hk, if_neg hk]; exact h.dt k'

theorem inv_step (max : Nat) (s : State) (h : Inv s) (op : Op) : Inv (s.step max op) := by
  cases op with
  | reserve k mem => exact inv_reserve max s h k mem
  | install k => exact inv_install max s h k
  | uninstall k =>
    simp only [State.step]
    cases hp : s.phase k with
    | none => exact h
    | some p =>
      cases p with
      | reserved _ => exact h
      | dead _ _ => exact h
      | freed _ _ => exact h
      | live slot id =>
        simp only
        obtain ⟨h1, _⟩ := refId_of h hp rfl
        have hb := h.bound k _ hp
        simp only [Phase.slot] at h1 hb
        have hsl := (h.slots slot k id).2 hp
        rw [h1]
        have e : s.tab.uninstall slot k = some (true, { s.tab with slots := s.tab.slots.set slot none }) := by
          unfold Tab.uninstall
          rw [if_neg (by omega), hsl]
          simp
        rw [e]
        simp only
        refine inv_move s h k _ _ _ s.dtors hp rfl ⟨id, rfl, rfl⟩ (by simp)
          ⟨h.twf.wf, by simpa using h.twf.cnt, by simpa using h.twf.le, by simpa using h.twf.mod⟩ (by simp) rfl (by simp [Phase.occ]) (by simp [Phase.occ])
          (by simp [Phase.occ, Phase.slot]) ?_ ?_
        · intro j k' id'
          rw [getD_set' _ _ _ _ _ hb]
          by_cases hj : j = slot
          · subst hj
            simp only [if_true, reduceCtorEq, false_iff, not_and, Classical.not_not]
            intro he
            rw [hsl] at he
            simp at he
            exact he.1.symm
          · simp only [hj, if_false]
            constructor
            · intro he
              refine ⟨he, ?_⟩
              intro hk; subst hk
              have := (h.slots j k' id').1 he
              rw [hp] at this; simp at this
              exact hj this.1.symm
            · exact fun he => he.1
        · intro k'
          by_cases hk : k' = k
          · subst hk
            have := h.dt k'
            rw [hp] at this
            simp [this, dtCount]
          · simp [hk]
      | removed slot id =>
        simp only
        obtain ⟨h1, _⟩ := refId_of h hp rfl
        have hb := h.bound k _ hp
        simp only [Phase.slot] at h1 hb
        rw [h1]
        have e : s.tab.uninstall slot k = some (false, s.tab) := by
          unfold Tab.uninstall
          rw [if_neg (by omega)]
          cases hg : s.tab.slots.getD slot none with
          | none => rfl
          | some o =>
            obtain ⟨k', id'⟩ := o
            have hl := (h.slots slot k' id').1 hg
            have hk : ¬ k' = k := by
              intro hk; subst hk; rw [hp] at hl; simp at hl
            simp [hk]
        rw [e]
        exact h
  | dtor k =>
    simp only [State.step]
    cases hp : s.phase k with
    | none => exact h
    | some p =>
      cases p with
      | reserved _ => exact h
      | dead _ _ => exact h
      | freed _ _ => exact h
      | live _ _ => exact h
      | removed slot id =>
        simp only
        refine inv_move s h k _ _ s.tab (upd s.dtors k (s.dtors k + 1)) hp rfl ⟨id, rfl, rfl⟩ (by simp)
          h.twf rfl rfl (by simp [Phase.occ]) (by simp [Phase.occ])
          (by simp [Phase.occ, Phase.slot]) ?_ ?_
        · intro j k' id'
          constructor
          · intro he
            refine ⟨he, ?_⟩
            intro hk; subst hk
            have := (h.slots j k' id').1 he
            rw [hp] at this; simp at this
          · exact fun he => he.1
        · intro k'
          by_cases hk : k' = k
          · subst hk
            have := h.dt k'
            rw [hp] at this
            simp [upd, this, dtCount]
          · simp [upd, hk]
  | release k =>
    simp only [State.step]
    cases hp : s.phase k with
    | none => exact h
    | some p =>
      cases p with
      | reserved _ => exact h
      | removed _ _ => exact h
      | freed _ _ => exact h
      | live _ _ => exact h
      | dead slot id =>
        simp only
        obtain ⟨h1, _⟩ := refId_of h hp rfl
        have hb := h.bound k _ hp
        have hle := h.twf.le
        simp only [Phase.slot] at h1 hb
        rw [h1]
        have e : s.tab.putId slot = some { s.tab with bits := s.tab.bits.clear slot } := by
          unfold Tab.putId; rw [if_neg (by omega)]
        rw [e]
        simp only
        obtain ⟨g1, g2, g3⟩ := Bitmap.exec_spec h.twf.wf (.clear slot) (show slot < 256 by omega)
        refine inv_move s h k _ _ _ s.dtors hp rfl ⟨id, rfl, rfl⟩ (by simp)
          ⟨g1, by rw [← h.twf.cnt]; exact g2, h.twf.le, h.twf.mod⟩ (by simp) rfl ?_ (by simp [Phase.occ])
          (by simp [Phase.occ, Phase.slot]) ?_ ?_
        · intro j
          have := g3 j
          simp only [Bitmap.exec, Bitmap.Spec.step, h.twf.cnt] at this
          rw [this]
          by_cases hj : j = slot
          · subst hj; simp [hb, Phase.occ, Phase.slot]
          · simp [hj, Phase.slot]
        · intro j k' id'
          constructor
          · intro he
            refine ⟨he, ?_⟩
            intro hk; subst hk
            have := (h.slots j k' id').1 he
            rw [hp] at this; simp at this
          · exact fun he => he.1
        · intro k'
          by_cases hk : k' = k
          · subst hk
            have := h.dt k'
            rw [hp] at this
            simp [this, dtCount]
          · simp [hk]

theorem inv_run (max : Nat) (ops : List Op) (s : State) (h : Inv s) : Inv (run max s ops) := by
  induction ops generalizing s with
  | nil => exact h
  | cons op ops ih => exact ih _ (inv_step max s h op)

/-! ## The properties -/

/-- The object has been created and not yet destroyed, with this handle. -/
def Live (s : State) (k : Nat) (id : BitVec 32) : Prop := ∃ slot, s.phase k = some (.live slot id)

theorem get_iff {s : State} (h : Inv s) (k : Nat) (id : BitVec 32) : s.tab.get id = some k ↔ Live s k id := by
  constructor
  · intro hg
    unfold Tab.get at hg
    split at hg
    · simp at hg
    · split at hg
      · rename_i h0 h1
        cases ho : s.tab.slots.getD (refId id).toNat none with
        | none => simp only [ho] at hg; simp at hg
        | some o =>
          simp only [ho] at hg
          split at hg
          · rename_i he
            simp at hg
            obtain ⟨k', id'⟩ := o
            simp at he hg
            subst he hg
            exact ⟨_, (h.slots _ _ _).1 ho⟩
          · simp at hg
      · simp at hg
  · rintro ⟨slot, hp⟩
    obtain ⟨h1, h2⟩ := refId_of h hp rfl
    have hb := h.bound k _ hp
    simp only [Phase.slot] at h1 h2 hb
    unfold Tab.get
    rw [if_neg (by omega), if_pos (by omega), h1, (h.slots slot k id).2 hp]
    simp

/-- C18. After every history of concurrent creations and destructions (interleaved step by step) no
    assertion of the table fails, the lookup of a handle yields an object exactly when that object is
    live with that handle, and hence no two live objects share a handle. -/
theorem C18_unique_handles (max : Nat) (ops : List Op) :
    let s := run max State.init ops
    s.aborted = false ∧ (∀ k id, s.tab.get id = some k ↔ Live s k id) ∧
    (∀ k k' id, Live s k id → Live s k' id → k = k') := by
  have h := inv_run max ops _ inv_init
  refine ⟨h.ok, fun k id => get_iff h k id, ?_⟩
  intro k k' id h1 h2
  have e1 := (get_iff h k id).2 h1
  have e2 := (get_iff h k' id).2 h2
  rw [e1] at e2; simpa using e2

/-- C19. If the i-th creation in the history returned handle `id`, then whatever happened since, looking
    up `id` now gives nothing, or that very object, or an object created at least 65535 creations later. -/
theorem C19_stale_handles (max : Nat) (ops : List Op) (i k : Nat) (id : BitVec 32) :
    let s := run max State.init ops
    s.log[i]? = some (k, id) → ∀ k', s.tab.get id = some k' →
    ∃ j, s.log[j]? = some (k', id) ∧ (j = i ∧ k' = k ∨ i + 65535 ≤ j) := by
  intro s hi k' hg
  have h : Inv s := inv_run max ops _ inv_init
  obtain ⟨slot, hp⟩ := (get_iff h k' id).1 hg
  obtain ⟨j, hj, hlog, hid⟩ := h.idlog k' _ id hp rfl
  obtain ⟨hi', hie⟩ := List.getElem?_eq_some_iff.1 hi
  obtain ⟨sl, h248, hid2, _⟩ := h.logid i hi'
  rw [hie] at hid2
  simp only [Phase.slot] at hid
  have hb := h.bound k' _ hp
  have hle := h.twf.le
  simp only [Phase.slot] at hb
  have hrid : refId id = slot := by rw [hid, refId_mkId _ _ (by omega)]
  have hij : i ≤ j := h.last k' slot id j hj hp hlog i hi' (by rw [hie]; exact hrid)
  have hinj := mkId_inj (by omega) (by omega) (hid.symm.trans hid2)
  have hmod := lifeOf_eq hinj.2
  refine ⟨j, List.getElem?_eq_some_iff.2 ⟨hj, hlog⟩, ?_⟩
  by_cases he : j = i
  · left
    subst he
    rw [hie] at hlog; simp at hlog
    exact ⟨rfl, hlog.symm⟩
  · right; omega

/-- The steps of creating and destroying object `k`. -/
def create (k : Nat) : List Op := [.reserve k true, .install k]
def destroy (k : Nat) : List Op := [.uninstall k, .dtor k, .release k]

/-- object `k` occupies no slot -/
def Gone (s : State) (k : Nat) : Prop := ∀ j, ¬ Occ s k j

/-- C20 (what holds). With memory available and a configured maximum of at least 248, a creation of a
    new object succeeds unless 248 objects occupy a slot (are live or not yet released). -/
theorem C20_capacity_partial (max : Nat) (hmax : 248 ≤ max) (ops : List Op) (k : Nat) :
    let s := run max State.init ops
    s.phase k = none →
    (∃ id, Live (run max s (create k)) k id) ∨
    (∃ ks : List Nat, ks.Nodup ∧ ks.length = 248 ∧ (∀ k' ∈ ks, ∃ j, Occ s k' j) ∧ (run max s (create k)).phase k = none) := by
  intro s hk
  have h : Inv s := inv_run max ops _ inv_init
  rcases alloc_spec max true s.tab h.twf with ⟨r, t', e, _⟩ | ⟨e, hall, hwhy⟩
  · left
    have h1 : Inv (s.step max (.reserve k true)) := inv_step max s h _
    have hs1 : (s.step max (.reserve k true)).phase k = some (.reserved r) := by
      simp [State.step, hk, e, upd]
    have h2 : Inv ((s.step max (.reserve k true)).step max (.install k)) := inv_step max _ h1 _
    have hok := h2.ok
    simp only [create, run, List.foldl_cons, List.foldl_nil]
    generalize (s.step max (.reserve k true)) = s1 at *
    simp only [State.step, hs1] at hok ⊢
    cases hi : s1.tab.install r k with
    | none => rw [hi] at hok; simp at hok
    | some x =>
      obtain ⟨id, t⟩ := x
      exact ⟨id, r, by simp [upd]⟩
  · right
    have h248 : s.tab.slots.length = 248 := by
      have := h.twf.le
      rcases hwhy with hw | hw | hw
      · simp at hw
      · exact hw
      · omega
    rw [h248] at hall
    have hnone : (run max s (create k)).phase k = none := by
      have : s.step max (.reserve k true) = s := by
        simp only [State.step, hk]
        rcases e with e | e <;> rw [e]
      simp only [create, run, List.foldl_cons, List.foldl_nil, this]
      simp only [State.step, hk]
    have hex : ∀ n, n ≤ 248 → ∃ ks : List Nat, ks.Nodup ∧ ks.length = n ∧ ∀ k' ∈ ks, ∃ j, j < n ∧ Occ s k' j := by
      intro n
      induction n with
      | zero => intro _; exact ⟨[], by simp, rfl, by simp⟩
      | succ n ih =>
        intro hn
        obtain ⟨ks, h1, h2, h3⟩ := ih (by omega)
        obtain ⟨k', hk'⟩ := (h.bit n).1 (hall n (by omega))
        refine ⟨k' :: ks, ?_, by simp [h2], ?_⟩
        · rw [List.nodup_cons]
          refine ⟨?_, h1⟩
          intro hm
          obtain ⟨j, hj, p, hp, hpo⟩ := h3 k' hm
          obtain ⟨p', hp', hpo'⟩ := hk'
          rw [hp] at hp'; simp at hp'; subst hp'
          rw [hpo] at hpo'; simp at hpo'; omega
        · intro x hx
          simp at hx
          rcases hx with rfl | hx
          · exact ⟨n, by omega, hk'⟩
          · obtain ⟨j, hj, ho⟩ := h3 x hx
            exact ⟨j, by omega, ho⟩
    obtain ⟨ks, h1, h2, h3⟩ := hex 248 (by omega)
    exact ⟨ks, h1, h2, fun k' hm => by obtain ⟨j, _, ho⟩ := h3 k' hm; exact ⟨j, ho⟩, hnone⟩

theorem phase_other (max : Nat) (s : State) (k k' : Nat) (hk : k' ≠ k) (ops : List Op)
    (hops : ∀ op ∈ ops, op = .reserve k true ∨ op = .install k) : (run max s ops).phase k' = s.phase k' := by
  induction ops generalizing s with
  | nil => rfl
  | cons op ops ih =>
    have e : (s.step max op).phase k' = s.phase k' := by
      rcases hops op (by simp) with rfl | rfl
      · simp only [State.step]
        cases hp : s.phase k with
        | some _ => rfl
        | none =>
          simp only
          cases ha : s.tab.alloc max true with
          | mk r t => cases r <;> simp [upd, hk]
      · simp only [State.step]
        cases hp : s.phase k with
        | none => rfl
        | some p =>
          cases p <;> try rfl
          simp only
          cases hi : s.tab.install _ k with
          | none => rfl
          | some x => simp [upd, hk]
    have := ih (s.step max op) (fun o ho => hops o (by simp [ho]))
    simp only [run, List.foldl_cons] at this ⊢
    rw [this, e]

/-- creations 0, 1, ..., n-1 -/
def createAll (n : Nat) : List Op := (List.range n).flatMap create

theorem createAll_succ (max n : Nat) : run max State.init (createAll (n + 1)) = run max (run max State.init (createAll n)) (create n) := by
  simp [createAll, run, List.range_succ, List.flatMap_append]

theorem createAll_phase (max n k : Nat) (hk : n ≤ k) : (run max State.init (createAll n)).phase k = none := by
  induction n with
  | zero => rfl
  | succ n ih =>
    rw [createAll_succ, phase_other max _ n k (by omega) _ (by simp [create])]
    exact ih (by omega)

theorem pigeon (n : Nat) : ∀ l : List Nat, l.Nodup → (∀ x ∈ l, x < n) → l.length ≤ n := by
  induction n with
  | zero =>
    intro l _ h
    cases l with
    | nil => simp
    | cons x l => exact absurd (h x (by simp)) (by omega)
  | succ n ih =>
    intro l hn h
    have := ih (l.erase n) (hn.erase n) (by
      intro x hx
      have h1 := h x (List.mem_of_mem_erase hx)
      have h2 := (List.Nodup.mem_erase_iff hn).1 hx
      have := h2.1
      omega)
    rw [List.length_erase] at this
    split at this <;> omega

theorem occupants (s : State) (h : Inv s) (ks : List Nat) (hn : ks.Nodup) (hk : ∀ k ∈ ks, ∃ j, Occ s k j) : ks.length ≤ 248 := by
  let f : Nat → Nat := fun k => match s.phase k with | some p => p.slot | none => 0
  have hf : ∀ k ∈ ks, Occ s k (f k) := by
    intro k hm
    obtain ⟨j, p, hp, ho⟩ := hk k hm
    have : f k = p.slot := by simp only [f, hp]
    rw [this]
    refine ⟨p, hp, ?_⟩
    cases p <;> simp_all [Phase.occ, Phase.slot]
  have hnd : (ks.map f).Nodup := by
    clear hk
    induction ks with
    | nil => simp
    | cons x xs ih =>
      rw [List.nodup_cons] at hn
      rw [List.map_cons, List.nodup_cons]
      refine ⟨?_, ih hn.2 (fun k hm => hf k (by simp [hm]))⟩
      intro hm
      obtain ⟨y, hy, he⟩ := List.mem_map.1 hm
      have h1 := hf x (by simp)
      have h2 := hf y (by simp [hy])
      rw [he] at h2
      have := h.uniq x y _ h1 h2
      subst this
      exact hn.1 hy
  have hlt : ∀ x ∈ ks.map f, x < 248 := by
    intro x hx
    obtain ⟨k, hm, rfl⟩ := List.mem_map.1 hx
    obtain ⟨p, hp, ho⟩ := hf k hm
    have hb := h.bound k p hp
    have hle := h.twf.le
    have : f k = p.slot := by simp only [f, hp]
    omega
  have := pigeon 248 _ hnd hlt
  simpa using this

theorem createAll_live (max : Nat) (hmax : 248 ≤ max) (n : Nat) : n ≤ 248 → ∀ k < n, ∃ id, Live (run max State.init (createAll n)) k id := by
  induction n with
  | zero => intro _ k hk; omega
  | succ n ih =>
    intro hn k hk
    rw [createAll_succ]
    by_cases hkn : k = n
    · subst hkn
      rcases C20_capacity_partial max hmax (createAll k) k (createAll_phase max k k (by omega)) with h | ⟨ks, h1, h2, h3, _⟩
      · exact h
      · exfalso
        have hsub : ∀ x ∈ ks, x < k := by
          intro x hx
          obtain ⟨j, p, hp, _⟩ := h3 x hx
          by_cases hlt : x < k
          · exact hlt
          · rw [createAll_phase max k x (by omega)] at hp; simp at hp
        have := pigeon k ks h1 hsub
        omega
    · obtain ⟨id, slot, hl⟩ := ih (by omega) k (by omega)
      exact ⟨id, slot, by rw [phase_other max _ n k hkn _ (by simp [create])]; exact hl⟩

theorem createAll_full (max : Nat) (hmax : 248 ≤ max) (n : Nat) (hn : n = 248) :
    (run max (run max State.init (createAll n)) (create n)).phase n = none := by
  rcases C20_capacity_partial max hmax (createAll n) n (createAll_phase max n n (by omega)) with ⟨id, slot, hl⟩ | ⟨ks, _, _, _, h⟩
  · exfalso
    have h : Inv (run max (run max State.init (createAll n)) (create n)) :=
      inv_run max _ _ (inv_run max _ _ inv_init)
    have := occupants _ h (List.range (n + 1)) List.nodup_range (by
      intro k hk
      have hk := List.mem_range.1 hk
      by_cases hkn : k = n
      · subst hkn; exact ⟨slot, _, hl, rfl⟩
      · obtain ⟨id', slot', hl'⟩ := createAll_live max hmax n (by omega) k (by omega)
        refine ⟨slot', .live slot' id', ?_, rfl⟩
        rw [phase_other max _ n k hkn _ (by simp [create])]; exact hl')
    simp at this
    omega
  · exact h

/-- C20 (violation). Whatever the configured maximum (20480 or 2048), 248 creations succeed and the
    249th fails: the sizes are passed to the bitmap as 8-bit numbers, and 256 becomes 0. -/
theorem C20_capacity_violated (max n : Nat) (hmax : 248 ≤ max) (hn : n = 248) :
    (∀ k < n, ∃ id, Live (run max State.init (createAll n)) k id) ∧
    (run max (run max State.init (createAll n)) (create n)).phase n = none :=
  ⟨createAll_live max hmax n (by omega), createAll_full max hmax n hn⟩

/-- C37. When a creation has just obtained a slot, every other object that ever had that slot has been
    destroyed, its destructor has run (once) and its slot has been released. -/
theorem C37_slot_reuse (max : Nat) (ops : List Op) (k : Nat) (mem : Bool) (slot : Nat) :
    let s := run max State.init ops
    let s' := s.step max (.reserve k mem)
    s.phase k = none → s'.phase k = some (.reserved slot) →
    ∀ k' p, k' ≠ k → s'.phase k' = some p → p.slot = slot →
      s'.dtors k' = 1 ∧ (∃ id, p = .freed slot id) ∧ s'.tab.get (mkId slot 0) ≠ some k' := by
  intro s s' _ h1 k' p hk hp hs
  have h : Inv s' := inv_step max s (inv_run max ops _ inv_init) _
  have hno : p.occ = none := by
    cases ho : p.occ with
    | none => rfl
    | some j =>
      have : j = slot := by cases p <;> simp_all [Phase.occ, Phase.slot]
      subst this
      exact absurd (h.uniq k' k j ⟨p, hp, ho⟩ ⟨_, h1, rfl⟩) hk
  cases p with
  | freed sl id =>
    simp only [Phase.slot] at hs
    subst hs
    refine ⟨by rw [h.dt k', hp]; rfl, ⟨id, rfl⟩, ?_⟩
    intro hg
    obtain ⟨sl', hl⟩ := (get_iff h k' _).1 hg
    rw [hp] at hl; simp at hl
  | _ => simp [Phase.occ] at hno

/-- Destructors run at most once per object, after the object has been destroyed, in every history. -/
theorem C37_destructor_once (max : Nat) (ops : List Op) (k : Nat) :
    let s := run max State.init ops
    s.dtors k ≤ 1 ∧ (s.dtors k = 1 → ∀ id, s.tab.get id ≠ some k) := by
  intro s
  have h : Inv s := inv_run max ops _ inv_init
  have hd := h.dt k
  constructor
  · rw [hd]; unfold dtCount; split <;> omega
  · intro h1 id hg
    obtain ⟨sl, hl⟩ := (get_iff h k id).1 hg
    rw [hd, hl] at h1
    simp [dtCount] at h1

/-! ### A handle can be reused after 65535 creations -/

/-- nothing occupies the table; `n` objects have come and gone -/
structure Clean (s : State) (n : Nat) : Prop where
  tab : s.tab = { Tab.init with life := lifeOf n }
  len : s.log.length = n
  fresh : ∀ k, n ≤ k → s.phase k = none

theorem cycle_clean (max : Nat) (s : State) (n : Nat) (h : Clean s n) :
    (run max s (create n)).log = s.log ++ [(n, mkId 0 (lifeOf n))] ∧
    (run max s (create n)).phase n = some (.live 0 (mkId 0 (lifeOf n))) ∧
    Clean (run max s (create n ++ destroy n)) (n + 1) ∧
    (run max s (create n ++ destroy n)).log = s.log ++ [(n, mkId 0 (lifeOf n))] := by
  obtain ⟨ht, hl, hf⟩ := h
  have hp := hf n (by omega)
  have hr : (refId (mkId 0 (lifeOf n))).toNat = 0 := by rw [refId_mkId _ _ (by omega)]; rfl
  have hz : (Tab.init.bits).findFirstZero = 0 := by decide
  have hset : (Tab.init.bits.set 0).clear 0 = Tab.init.bits := by decide
  have e1 : s.step max (.reserve n true) =
      { s with tab := ⟨Tab.init.bits.set 0, Tab.init.slots, lifeOf n⟩, phase := upd s.phase n (some (.reserved 0)) } := by
    simp only [State.step, hp, ht, Tab.alloc, hz, Tab.take]
    simp
  have e2 : (run max s (create n)) =
      { s with tab := ⟨Tab.init.bits.set 0, Tab.init.slots.set 0 (some ⟨n, mkId 0 (lifeOf n)⟩), lifeOf (n+1)⟩,
               phase := upd (upd s.phase n (some (.reserved 0))) n (some (.live 0 (mkId 0 (lifeOf n)))),
               log := s.log ++ [(n, mkId 0 (lifeOf n))] } := by
    simp only [create, run, List.foldl_cons, List.foldl_nil, e1]
    simp [State.step, upd, Tab.install, Tab.init, nextLife_lifeOf]
  let id := mkId 0 (lifeOf n)
  let s2 := run max s (create n)
  let s3 : State := { s2 with tab := ⟨Tab.init.bits.set 0, Tab.init.slots, lifeOf (n+1)⟩, phase := upd s2.phase n (some (.removed 0 id)) }
  have p2 : s2.phase n = some (.live 0 id) := by show (run max s (create n)).phase n = _; rw [e2]; simp [upd, id]
  have t2 : s2.tab = ⟨Tab.init.bits.set 0, Tab.init.slots.set 0 (some ⟨n, id⟩), lifeOf (n+1)⟩ := by
    show (run max s (create n)).tab = _; rw [e2]
  have hr' : (refId id).toNat = 0 := hr
  have e3 : s2.step max (.uninstall n) = s3 := by
    have hu : s2.tab.uninstall 0 n = some (true, ⟨Tab.init.bits.set 0, Tab.init.slots, lifeOf (n+1)⟩) := by
      rw [t2]; simp [Tab.uninstall, Tab.init]
    unfold State.step
    simp only [p2, hr', hu]
    rfl
  let s4 : State := { s3 with phase := upd s3.phase n (some (.dead 0 id)), dtors := upd s3.dtors n (s3.dtors n + 1) }
  have p3 : s3.phase n = some (.removed 0 id) := by simp [s3, upd]
  have e4 : s3.step max (.dtor n) = s4 := by
    unfold State.step
    simp only [p3]
    rfl
  let s5 : State := { s4 with tab := ⟨Tab.init.bits, Tab.init.slots, lifeOf (n+1)⟩, phase := upd s4.phase n (some (.freed 0 id)) }
  have p4 : s4.phase n = some (.dead 0 id) := by simp [s4, upd]
  have e5 : s4.step max (.release n) = s5 := by
    have hu : s4.tab.putId 0 = some ⟨Tab.init.bits, Tab.init.slots, lifeOf (n+1)⟩ := by
      show Tab.putId ⟨Tab.init.bits.set 0, Tab.init.slots, lifeOf (n+1)⟩ 0 = _
      unfold Tab.putId
      simp only [hset]
      rfl
    unfold State.step
    simp only [p4, hr', hu]
    rfl
  have e : run max s (create n ++ destroy n) = s5 := by
    have : run max s (create n ++ destroy n) = ((s2.step max (.uninstall n)).step max (.dtor n)).step max (.release n) := by
      simp [run, destroy, s2]
    rw [this, e3, e4, e5]
  have hlog : s5.log = s.log ++ [(n, mkId 0 (lifeOf n))] := by
    show s2.log = _
    show (run max s (create n)).log = _
    rw [e2]
  refine ⟨by rw [e2], by rw [e2]; simp [upd], ?_, by rw [e]; exact hlog⟩
  rw [e]
  refine ⟨rfl, by rw [hlog]; simp [hl], ?_⟩
  intro k hk
  have hk' : k ≠ n := by omega
  have : s5.phase k = s2.phase k := by simp [s5, s4, s3, upd, hk']
  rw [this]
  show (run max s (create n)).phase k = _
  rw [e2]
  simp only [upd, if_neg hk']
  exact hf k (by omega)

/-- create and destroy the objects 0, ..., n-1, one after the other -/
def cycles (n : Nat) : List Op := (List.range n).flatMap fun k => create k ++ destroy k

theorem cycles_succ (max n : Nat) : run max State.init (cycles (n + 1)) = run max (run max State.init (cycles n)) (create n ++ destroy n) := by
  simp [cycles, run, List.range_succ, List.flatMap_append]

theorem cycles_clean (max n : Nat) : Clean (run max State.init (cycles n)) n ∧
    ∀ i < n, (run max State.init (cycles n)).log[i]? = some (i, mkId 0 (lifeOf i)) := by
  induction n with
  | zero => exact ⟨⟨rfl, rfl, fun _ _ => rfl⟩, by intro i hi; omega⟩
  | succ n ih =>
    obtain ⟨_, _, h3, h4⟩ := cycle_clean max _ n ih.1
    rw [cycles_succ]
    refine ⟨h3, ?_⟩
    intro i hi
    rw [h4]
    by_cases h : i < n
    · rw [List.getElem?_append_left (by rw [ih.1.len]; exact h)]
      exact ih.2 i h
    · have : i = n := by omega
      subst this
      rw [List.getElem?_append_right (by rw [ih.1.len]; omega), ih.1.len]
      simp

/-- C19 (the bound is tight). Object 0 and, after exactly 65535 creations, object `n` get the same handle:
    looking up the handle of the long destroyed object 0 then yields object `n`. -/
theorem C19_alias_after_65535 (max n : Nat) (hn : n = 65535) :
    let s := run max (run max State.init (cycles n)) (create n)
    ∃ id, s.log[0]? = some (0, id) ∧ s.tab.get id = some n ∧ n ≠ 0 := by
  intro s
  obtain ⟨hc, hlog⟩ := cycles_clean max n
  obtain ⟨h1, h2, _, _⟩ := cycle_clean max _ n hc
  have hinv : Inv s := inv_run max _ _ (inv_run max _ _ inv_init)
  refine ⟨mkId 0 (lifeOf 0), ?_, ?_, by omega⟩
  · show (run max (run max State.init (cycles n)) (create n)).log[0]? = _
    rw [h1, List.getElem?_append_left (by rw [hc.len]; omega)]
    exact hlog 0 (by omega)
  · rw [get_iff hinv]
    refine ⟨0, ?_⟩
    show (run max (run max State.init (cycles n)) (create n)).phase n = _
    rw [h2]
    have : lifeOf n = lifeOf 0 := by
      apply BitVec.eq_of_toNat_eq
      rw [lifeOf_toNat, lifeOf_toNat]; omega
    rw [this]

/-! ## Non-vacuity -/
/-- two threads creating at the same time, one object destroyed, its slot reused -/
example :
    let s := run 20480 State.init
      [.reserve 1 true, .reserve 2 true, .install 2, .install 1, .uninstall 2, .dtor 2, .release 2, .reserve 3 true, .install 3]
    s.log = [(2, mkId 1 1), (1, mkId 0 2), (3, mkId 1 3)] ∧ s.tab.get (mkId 1 1) = none ∧
    s.tab.get (mkId 1 3) = some 3 ∧ s.dtors 2 = 1 ∧ s.aborted = false := by decide +kernel

end Verif.IdTable
