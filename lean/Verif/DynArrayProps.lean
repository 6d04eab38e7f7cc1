import Verif.DynArray
/-! Properties C25 (append), C26 (strings), C27 (comparison), C88 (ownership of the memory). -/
namespace Verif.DynArray

variable {α : Type}

/-! ## Specification -/
namespace Spec

/-- The array holds the elements `xs`. -/
def Holds (s : St α) (i : Nat) (xs : List α) : Prop :=
  (s.arr i).count = xs.length ∧
  (0 < xs.length → ∃ p b, (s.arr i).ptr = some p ∧ s.heap p = some b ∧ b.take xs.length = xs.map some)

/-- The array owns a block. -/
def Owns (s : St α) (i p : Nat) : Prop := 0 < (s.arr i).allocated ∧ (s.arr i).ptr = some p

/-- Every block is owned by exactly one array and has the size recorded there. -/
structure Own (s : St α) : Prop where
  count : ∀ i, (s.arr i).count ≤ (s.arr i).allocated
  small : ∀ i, (s.arr i).allocated < 65536
  block : ∀ i, 0 < (s.arr i).allocated → ∃ p b, (s.arr i).ptr = some p ∧ s.heap p = some b ∧ b.length = (s.arr i).allocated
  unique : ∀ i j p, Owns s i p → Owns s j p → i = j
  owned : ∀ p, s.heap p ≠ none → ∃ i, Owns s i p
  fresh : ∀ p, s.next ≤ p → s.heap p = none

/-- the contents of the arrays of a program -/
abbrev Contents (α : Type) := Nat → List α

def upd (ab : Contents α) (i : Nat) (xs : List α) : Contents α := fun j => if j = i then xs else ab j

/-- What an operation does to the contents, `oom` being whether an allocation fails. -/
inductive Does (oom : Bool) : Contents α → Op α → Rc → Contents α → Prop where
  | add {ab i xs} : (ab i).length + xs.length < 10240 → Does oom ab (.add i xs) .ok (upd ab i (ab i ++ xs))
  | addBig {ab i xs} : 10240 ≤ (ab i).length + xs.length → Does oom ab (.add i xs) .e2big ab
  | addMem {ab i xs} : oom = true → (ab i).length + xs.length < 10240 → Does oom ab (.add i xs) .enomem ab
  | set {ab i xs} : xs.length < 10240 → Does oom ab (.copyData i xs) .ok (upd ab i xs)
  | setBig {ab i xs} : 10240 ≤ xs.length → Does oom ab (.copyData i xs) .e2big (upd ab i [])
  | setMem {ab i xs} : oom = true → xs.length < 10240 → Does oom ab (.copyData i xs) .enomem (upd ab i [])
  | cat {ab i xs} : (ab i).length + xs.length < 10240 → Does oom ab (.strcat i xs) .ok (upd ab i (ab i ++ xs))
  | catBig {ab i xs} : 10240 ≤ (ab i).length + xs.length → Does oom ab (.strcat i xs) .e2big ab
  | catMem {ab i xs} : oom = true → (ab i).length + xs.length < 10240 → Does oom ab (.strcat i xs) .enomem ab
  | cpy {ab i xs} : xs.length < 10240 → Does oom ab (.strcpy i xs) .ok (upd ab i xs)
  | cpyBig {ab i xs} : 10240 ≤ xs.length → Does oom ab (.strcpy i xs) .e2big (upd ab i [])
  | cpyMem {ab i xs} : oom = true → xs.length < 10240 → Does oom ab (.strcpy i xs) .enomem (upd ab i [])
  | take {ab d r} : Does oom ab (.take d r) .ok (upd (upd ab d (ab r)) r [])
  | copy {ab d r} : Does oom ab (.copy d r) .ok (upd ab d (ab r))
  | copyMem {ab d r} : oom = true → Does oom ab (.copy d r) .minus1 ab
  | fini {ab i} : Does oom ab (.fini i) .ok (upd ab i [])
  | initWith {ab i data} : Does oom ab (.finiInitWith i data) .ok (upd ab i data)

/-- The text a C program sees through the pointer of a string: the elements before the first NUL. -/
def Text [DecidableEq α] (z : α) (s : St α) (i : Nat) (t : List α) : Prop :=
  z ∉ t ∧ ∃ p b, (s.arr i).ptr = some p ∧ s.heap p = some b ∧ t.length < b.length ∧ b.take (t.length + 1) = t.map some ++ [some z]

/-- contents and memory -/
def R (s : St α) (ab : Contents α) : Prop := Own s ∧ ∀ i, Holds s i (ab i)

/-- a program start: no array holds anything, nothing is allocated -/
def start : St α := ⟨fun _ => ⟨0, 0, none⟩, fun _ => none, 0⟩

/-- A history: operations with the outcome of the allocation; `init_with` with less than 65536 elements. -/
def Legal (ops : List (Op α × Bool)) : Prop := ∀ o ∈ ops, ∀ i data, o.1 = .finiInitWith i data → data.length < 65536

def run (z : α) (s : St α) : List (Op α × Bool) → Option (List Rc × St α)
  | [] => some ([], s)
  | (op, oom) :: ops => (step z s oom op).bind fun (rc, s') => (run z s' ops).bind fun (rcs, s'') => some (rc :: rcs, s'')

/-- the same history on the contents -/
inductive Did : Contents α → List (Op α × Bool) → List Rc → Contents α → Prop where
  | nil {ab} : Did ab [] [] ab
  | cons {ab op oom rc ab' ops rcs ab''} : Does oom ab op rc ab' → Did ab' ops rcs ab'' → Did ab ((op, oom) :: ops) (rc :: rcs) ab''

end Spec
open Spec

/-! ## Lemmas -/

theorem grow_ge (k a t : Nat) : a ≤ grow k a t ∧ t ≤ grow k a t := by
  fun_induction grow k a t <;> omega

/-- the growing size stays below the target plus the stride -/
theorem grow_bound (k a t : Nat) : grow k a t ≤ max a (t + k) := by
  fun_induction grow k a t <;> omega

theorem wr_eq {s : St α} {p off : Nat} {xs b : List (Option α)} (hb : s.heap p = some b) (hl : off + xs.length ≤ b.length) :
    wr s (some p) off xs = some (s.setHeap p (some (b.take off ++ xs ++ b.drop (off + xs.length)))) := by
  simp [wr, hb, hl]

theorem start_R : R (start : St α) fun _ => [] := by
  refine ⟨⟨?_, ?_, ?_, ?_, ?_, ?_⟩, ?_⟩ <;> simp [start, Owns, Holds]

/-- a change of one array -/
theorem R_update {s s' : St α} {ab : Contents α} {i : Nat} {xs : List α} (h : R s ab)
    (harr : ∀ j, j ≠ i → s'.arr j = s.arr j)
    (hheap : ∀ j p, j ≠ i → Owns s j p → s'.heap p = s.heap p)
    (hcount : (s'.arr i).count = xs.length)
    (hsmall : (s'.arr i).allocated < 65536)
    (hcap : xs.length ≤ (s'.arr i).allocated)
    (hblock : 0 < (s'.arr i).allocated → ∃ p b, (s'.arr i).ptr = some p ∧ s'.heap p = some b ∧ b.length = (s'.arr i).allocated ∧
      b.take xs.length = xs.map some ∧ ∀ j, j ≠ i → ¬ Owns s j p)
    (howned : ∀ p, s'.heap p ≠ none → (∃ j, j ≠ i ∧ Owns s j p) ∨ Owns s' i p)
    (hfresh : ∀ p, s'.next ≤ p → s'.heap p = none) : R s' (upd ab i xs) := by
  obtain ⟨⟨c1, c2, c3, c4, c5, c6⟩, hh⟩ := h
  refine ⟨⟨?_, ?_, ?_, ?_, ?_, hfresh⟩, ?_⟩
  · intro j
    by_cases hj : j = i
    · subst hj; omega
    · rw [harr j hj]; exact c1 j
  · intro j
    by_cases hj : j = i
    · subst hj; exact hsmall
    · rw [harr j hj]; exact c2 j
  · intro j h0
    by_cases hj : j = i
    · subst hj
      obtain ⟨p, b, h1, h2, h3, _⟩ := hblock h0
      exact ⟨p, b, h1, h2, h3⟩
    · rw [harr j hj] at h0 ⊢
      obtain ⟨p, b, h1, h2, h3⟩ := c3 j h0
      exact ⟨p, b, h1, by rw [hheap j p hj ⟨h0, h1⟩, h2], h3⟩
  · intro j k p hj hk
    unfold Owns at hj hk
    by_cases h1 : j = i
    · by_cases h2 : k = i
      · rw [h1, h2]
      · exfalso
        subst h1
        rw [harr k h2] at hk
        obtain ⟨p', b, e1, _, _, _, e5⟩ := hblock hj.1
        rw [hj.2] at e1
        cases e1
        exact e5 k h2 hk
    · by_cases h2 : k = i
      · exfalso
        subst h2
        rw [harr j h1] at hj
        obtain ⟨p', b, e1, _, _, _, e5⟩ := hblock hk.1
        rw [hk.2] at e1
        cases e1
        exact e5 j h1 hj
      · rw [harr j h1] at hj
        rw [harr k h2] at hk
        exact c4 j k p hj hk
  · intro p hp
    rcases howned p hp with ⟨j, hj, ho⟩ | ho
    · exact ⟨j, by unfold Owns at *; rw [harr j hj]; exact ho⟩
    · exact ⟨i, ho⟩
  · intro j
    by_cases hj : j = i
    · subst hj
      simp only [upd, if_true]
      refine ⟨hcount, fun h0 => ?_⟩
      obtain ⟨p, b, h1, h2, _, h4, _⟩ := hblock (by omega)
      exact ⟨p, b, h1, h2, h4⟩
    · simp only [upd, hj, if_false]
      obtain ⟨e1, e2⟩ := hh j
      refine ⟨by rw [harr j hj]; exact e1, fun h0 => ?_⟩
      obtain ⟨p, b, h1, h2, h3⟩ := e2 h0
      refine ⟨p, b, by rw [harr j hj]; exact h1, ?_, h3⟩
      rw [hheap j p hj ⟨by have := c1 j; omega, h1⟩, h2]

theorem upd_self (ab : Contents α) (i : Nat) : upd ab i (ab i) = ab := by
  funext j; unfold upd; split
  · rename_i h; rw [h]
  · rfl

theorem upd_upd (ab : Contents α) (i : Nat) (x y : List α) : upd (upd ab i x) i y = upd ab i y := by
  funext j; unfold upd; split <;> rfl

theorem R_block {s : St α} {ab : Contents α} (h : R s ab) {i : Nat} (h0 : 0 < (s.arr i).allocated) :
    ∃ p b, (s.arr i).ptr = some p ∧ s.heap p = some b ∧ b.length = (s.arr i).allocated ∧ b.take (ab i).length = (ab i).map some ∧
      p < s.next ∧ Owns s i p := by
  obtain ⟨p, b, h1, h2, h3⟩ := h.1.block i h0
  refine ⟨p, b, h1, h2, h3, ?_, ?_, h0, h1⟩
  · by_cases hx : 0 < (ab i).length
    · obtain ⟨p', b', e1, e2, e3⟩ := (h.2 i).2 hx
      rw [h1] at e1; cases e1
      rw [h2] at e2; cases e2
      exact e3
    · have : ab i = [] := List.length_eq_zero_iff.1 (by omega)
      rw [this]; simp
  · by_cases hp : s.next ≤ p
    · have := h.1.fresh p hp; rw [h2] at this; cases this
    · omega

/-- shrinking the count to 0 -/
theorem R_clear {s : St α} {ab : Contents α} (h : R s ab) (i : Nat) :
    R (s.setArr i { (s.arr i) with count := 0 }) (upd ab i []) := by
  refine R_update h (fun j hj => by simp [St.setArr, hj]) (fun j p hj _ => rfl) (by simp [St.setArr]) (by simp [St.setArr]; exact h.1.small i)
    (by simp) ?_ ?_ h.1.fresh
  · intro h0
    simp only [St.setArr, if_true] at h0 ⊢
    obtain ⟨p, b, h1, h2, h3, _, _, h6⟩ := R_block h h0
    exact ⟨p, b, h1, h2, h3, by simp, fun j hj ho => hj (h.1.unique j i p ho h6)⟩
  · intro p hp
    obtain ⟨j, hj⟩ := h.1.owned p hp
    by_cases hji : j = i
    · subst hji; right; simpa [Owns, St.setArr] using hj
    · exact .inl ⟨j, hji, hj⟩

theorem reserve_spec {s : St α} {ab : Contents α} (h : R s ab) (k i t : Nat) (ht : t + k < 65536) (oom : Bool) :
    (oom = true ∧ reserve k s i t oom = some none) ∨
    ∃ s1, reserve k s i t oom = some (some s1) ∧ R s1 ab ∧ t ≤ (s1.arr i).allocated := by
  have hg := grow_ge k (s.arr i).allocated t
  have hb := grow_bound k (s.arr i).allocated t
  have hsm := h.1.small i
  unfold reserve
  dsimp only
  by_cases hgr : (s.arr i).allocated < grow k (s.arr i).allocated t
  · rw [if_pos hgr]
    cases oom with
    | true => left; exact ⟨rfl, by simp⟩
    | false =>
      right
      simp only [Bool.false_eq_true, if_false]
      generalize hal : grow k (s.arr i).allocated t = al at *
      have hcnt := (h.2 i).1
      have hcap := h.1.count i
      -- the block of the array, if any, is not the new one
      by_cases h0 : 0 < (s.arr i).allocated
      · obtain ⟨p, b, h1, h2, h3, h4, h5, h6⟩ := R_block h h0
        have hpn : p ≠ s.next := by omega
        have hcopy : ∃ s2, (if 0 < (s.arr i).count then (rd (alloc s al).1 (s.arr i).ptr (s.arr i).count).bind fun old =>
            wr (alloc s al).1 (some (alloc s al).2) 0 old else some (alloc s al).1) = some s2 ∧ s2.arr = s.arr ∧ s2.next = s.next + 1 ∧
            (∀ q, q ≠ s.next → s2.heap q = s.heap q) ∧
            ∃ nb, s2.heap s.next = some nb ∧ nb.length = al ∧ nb.take (ab i).length = (ab i).map some := by
          by_cases hc : 0 < (s.arr i).count
          · rw [if_pos hc]
            have hlen : (s.arr i).count ≤ b.length := by omega
            have e1 : rd (alloc s al).1 (s.arr i).ptr (s.arr i).count = some (b.take (s.arr i).count) := by
              simp [rd, alloc, St.setHeap, h1, hpn, h2, hlen]
            rw [e1]
            have e2 : (b.take (s.arr i).count).length = (s.arr i).count := by simp; omega
            have e3 : 0 + (b.take (s.arr i).count).length ≤ (List.replicate al (none : Option α)).length := by
              rw [e2]; simp; omega
            refine ⟨_, wr_eq (s := (alloc s al).1) (p := s.next) (by simp [alloc, St.setHeap]) e3, rfl, rfl, ?_, ?_⟩
            · intro q hq; simp [alloc, St.setHeap, hq]
            · refine ⟨_, by simp only [St.setHeap, if_true]; rfl, ?_, ?_⟩
              · simp; omega
              · rw [hcnt] at e2 ⊢
                simp only [List.take_zero, List.nil_append]
                rw [List.take_append_of_le_length (by omega), List.take_of_length_le (by omega), h4]
          · rw [if_neg hc]
            refine ⟨_, rfl, rfl, rfl, ?_, ?_⟩
            · intro q hq; simp [alloc, St.setHeap, hq]
            · refine ⟨List.replicate al none, by simp [alloc, St.setHeap], by simp, ?_⟩
              have : ab i = [] := List.length_eq_zero_iff.1 (by omega)
              rw [this]; simp
        obtain ⟨s2, e1, e2, e3, e4, nb, e5, e6, e7⟩ := hcopy
        rw [e1]
        simp only [Option.bind]
        have hrel : release s2 (s.arr i).ptr = some (s2.setHeap p none) := by
          simp [release, h1, e4 p hpn, h2]
        rw [if_pos h0, hrel]
        refine ⟨_, rfl, ?_, by simp [St.setArr]; omega⟩
        have := R_update (i := i) (xs := ab i) (s' := (s2.setHeap p none).setArr i { (s.arr i) with ptr := some (alloc s al).2, allocated := al }) h
          (fun j hj => by simp [St.setArr, St.setHeap, hj, e2])
          (fun j q hj ho => ?_) (by simp [St.setArr, hcnt]) (by simp [St.setArr]; omega) (by simp [St.setArr]; omega) ?_ ?_ ?_
        · rw [upd_self] at this; exact this
        · have hqp : q ≠ p := by rintro rfl; exact hj (h.1.unique j i q ho h6)
          have hqn : q ≠ s.next := by
            rintro rfl
            obtain ⟨p', b', f1, f2, _⟩ := h.1.block j ho.1
            rw [ho.2] at f1; cases f1
            have := h.1.fresh _ (Nat.le_refl s.next); rw [this] at f2; cases f2
          simp only [St.setArr, St.setHeap, hqp, if_false]
          exact e4 q hqn
        · intro _
          refine ⟨s.next, nb, by simp [St.setArr, alloc], ?_, by simp [St.setArr]; omega, e7, ?_⟩
          · simp only [St.setArr, St.setHeap, Ne.symm hpn, if_false]; exact e5
          · intro j hj ho
            obtain ⟨p', b', f1, f2, _⟩ := h.1.block j ho.1
            rw [ho.2] at f1; cases f1
            have := h.1.fresh _ (Nat.le_refl s.next); rw [this] at f2; cases f2
        · intro q hq
          simp only [St.setArr, St.setHeap] at hq
          by_cases hqp : q = p
          · simp [hqp] at hq
          · simp only [hqp, if_false] at hq
            by_cases hqn : q = s.next
            · right; subst hqn
              simp only [Owns, St.setArr, if_true, alloc]
              exact ⟨by omega, by simp⟩
            · left
              rw [e4 q hqn] at hq
              obtain ⟨j, hj⟩ := h.1.owned q hq
              refine ⟨j, ?_, hj⟩
              rintro rfl
              rw [hj.2] at h1; cases h1; exact hqp rfl
        · intro q hq
          simp only [St.setArr, St.setHeap, e3] at hq ⊢
          rw [if_neg (by omega), e4 q (by omega)]
          exact h.1.fresh q (by omega)
      · -- nothing was allocated
        have hz : (s.arr i).count = 0 := by omega
        have hab : ab i = [] := List.length_eq_zero_iff.1 (by omega)
        rw [if_neg (by omega)]
        simp only [Option.bind, if_neg h0]
        refine ⟨_, rfl, ?_, by simp [St.setArr]; omega⟩
        have := R_update (i := i) (xs := ab i) (s' := (alloc s al).1.setArr i { (s.arr i) with ptr := some (alloc s al).2, allocated := al }) h
          (fun j hj => by simp [St.setArr, alloc, St.setHeap, hj])
          (fun j q hj ho => ?_) (by simp [St.setArr, hcnt]) (by simp [St.setArr]; omega) (by simp [St.setArr]; omega) ?_ ?_ ?_
        · rw [upd_self] at this; exact this
        · have hqn : q ≠ s.next := by
            rintro rfl
            obtain ⟨p', b', f1, f2, _⟩ := h.1.block j ho.1
            rw [ho.2] at f1; cases f1
            have := h.1.fresh _ (Nat.le_refl s.next); rw [this] at f2; cases f2
          simp [St.setArr, alloc, St.setHeap, hqn]
        · intro _
          refine ⟨s.next, List.replicate al none, by simp [St.setArr, alloc], by simp [St.setArr, alloc, St.setHeap], by simp [St.setArr], by simp [hab], ?_⟩
          intro j hj ho
          obtain ⟨p', b', f1, f2, _⟩ := h.1.block j ho.1
          rw [ho.2] at f1; cases f1
          have := h.1.fresh _ (Nat.le_refl s.next); rw [this] at f2; cases f2
        · intro q hq
          simp only [St.setArr, alloc, St.setHeap] at hq
          by_cases hqn : q = s.next
          · right; subst hqn
            simp only [Owns, St.setArr, if_true, alloc]
            exact ⟨by omega, by simp⟩
          · left
            simp only [hqn, if_false] at hq
            obtain ⟨j, hj⟩ := h.1.owned q hq
            refine ⟨j, ?_, hj⟩
            rintro rfl
            exact h0 hj.1
        · intro q hq
          simp only [St.setArr, alloc, St.setHeap] at hq ⊢
          rw [if_neg (by omega)]
          exact h.1.fresh q (by omega)
  · rw [if_neg hgr]
    exact .inr ⟨s, rfl, h, by omega⟩

/-- writing elements into the owned block, at the end of the contents -/
theorem wr_spec {s : St α} {ab : Contents α} (h : R s ab) (i : Nat) (xs : List α) (h0 : 0 < xs.length)
    (hcap : (ab i).length + xs.length ≤ (s.arr i).allocated) :
    ∃ s1, wr s (s.arr i).ptr (ab i).length (xs.map some) = some s1 ∧ s1.arr = s.arr ∧
      R (s1.setArr i { (s1.arr i) with count := (ab i).length + xs.length }) (upd ab i (ab i ++ xs)) := by
  obtain ⟨p, b, h1, h2, h3, h4, h5, h6⟩ := R_block h (i := i) (by omega)
  have hle : (ab i).length + (xs.map some).length ≤ b.length := by rw [List.length_map]; omega
  have hw := wr_eq h2 hle
  rw [← h1] at hw
  refine ⟨_, hw, rfl, ?_⟩
  refine R_update h (fun j hj => by simp [St.setArr, St.setHeap, hj]) (fun j q hj ho => ?_) (by simp [St.setArr])
    (by simp [St.setArr, St.setHeap]; exact h.1.small i) (by simp [St.setArr, St.setHeap]; omega) ?_ ?_ ?_
  · have hqp : q ≠ p := by rintro rfl; exact hj (h.1.unique j i q ho h6)
    simp [St.setArr, St.setHeap, hqp]
  · intro _
    refine ⟨p, _, by simpa [St.setArr, St.setHeap] using h1, by simp only [St.setArr, St.setHeap, if_true]; rfl, ?_, ?_, ?_⟩
    · simp only [List.length_map] at hle
      simp [St.setArr, St.setHeap]; omega
    · rw [h4]
      rw [List.take_append_of_le_length (by simp), List.take_of_length_le (by simp)]
      simp
    · intro j hj ho; exact hj (h.1.unique j i p ho h6)
  · intro q hq
    simp only [St.setArr, St.setHeap] at hq
    by_cases hqp : q = p
    · right; subst hqp; simpa [Owns, St.setArr, St.setHeap] using h6
    · left
      simp only [hqp, if_false] at hq
      obtain ⟨j, hj⟩ := h.1.owned q hq
      refine ⟨j, ?_, hj⟩
      rintro rfl
      rw [hj.2] at h1; cases h1; exact hqp rfl
  · intro q hq
    simp only [St.setArr, St.setHeap] at hq ⊢
    rw [if_neg (by omega)]
    exact h.1.fresh q hq

/-- writing a NUL behind the contents -/
theorem nul_spec {s : St α} {ab : Contents α} (h : R s ab) (i : Nat) (z : α) (hcap : (ab i).length < (s.arr i).allocated) :
    ∃ s1, wr s (s.arr i).ptr (s.arr i).count [some z] = some s1 ∧ R s1 ab ∧
      ∃ p b, (s1.arr i).ptr = some p ∧ s1.heap p = some b ∧ (ab i).length < b.length ∧
        b.take ((ab i).length + 1) = (ab i).map some ++ [some z] := by
  obtain ⟨p, b, h1, h2, h3, h4, h5, h6⟩ := R_block h (i := i) (by omega)
  have hcnt := (h.2 i).1
  have hle : (s.arr i).count + [some z].length ≤ b.length := by simp; omega
  have htake : (b.take (s.arr i).count ++ [some z] ++ b.drop ((s.arr i).count + 1)).take ((ab i).length + 1) = (ab i).map some ++ [some z] := by
    rw [hcnt, h4]
    rw [List.take_append_of_le_length (by simp), List.take_of_length_le (by simp)]
  have hw := wr_eq h2 hle
  rw [← h1] at hw
  refine ⟨_, hw, ?_, p, _, h1, by simp only [St.setHeap, if_true]; rfl, ?_, htake⟩
  · have := R_update (i := i) (xs := ab i) (s' := s.setHeap p (some (b.take (s.arr i).count ++ [some z] ++ b.drop ((s.arr i).count + 1)))) h
      (fun j hj => rfl) (fun j q hj ho => ?_) hcnt (h.1.small i) (by simp [St.setHeap]; omega) ?_ ?_ ?_
    · rw [upd_self] at this; exact this
    · have hqp : q ≠ p := by rintro rfl; exact hj (h.1.unique j i q ho h6)
      simp [St.setHeap, hqp]
    · intro _
      refine ⟨p, _, h1, by simp only [St.setHeap, if_true]; rfl, ?_, ?_, ?_⟩
      · simp at hle
        simp [St.setHeap]; omega
      · have := congrArg (List.take (ab i).length) htake
        rw [List.take_take] at this
        simpa using this
      · intro j hj ho; exact hj (h.1.unique j i p ho h6)
    · intro q hq
      simp only [St.setHeap] at hq
      by_cases hqp : q = p
      · right; subst hqp; simpa [Owns, St.setHeap] using h6
      · left
        simp only [hqp, if_false] at hq
        obtain ⟨j, hj⟩ := h.1.owned q hq
        refine ⟨j, ?_, hj⟩
        rintro rfl
        rw [hj.2] at h1; cases h1; exact hqp rfl
    · intro q hq
      simp only [St.setHeap] at hq ⊢
      rw [if_neg (by omega)]
      exact h.1.fresh q hq
  · simp at hle; simp; omega

theorem addElems_spec {s : St α} {ab : Contents α} (h : R s ab) (i : Nat) (xs : List α) (oom : Bool) :
    ∃ rc s', addElems s i xs oom = some (rc, s') ∧
      ((10240 ≤ (ab i).length + xs.length ∧ rc = .e2big ∧ s' = s) ∨
       ((ab i).length + xs.length < 10240 ∧
         ((rc = .ok ∧ R s' (upd ab i (ab i ++ xs))) ∨ (oom = true ∧ rc = .enomem ∧ s' = s)))) := by
  have hcnt := (h.2 i).1
  unfold addElems
  dsimp only
  by_cases h1 : (s.arr i).count ≥ MAX_COUNT
  · rw [if_pos h1]; exact ⟨_, _, rfl, .inl ⟨by simp only [MAX_COUNT] at h1; omega, rfl, rfl⟩⟩
  rw [if_neg h1]
  by_cases h2 : xs.length ≥ MAX_COUNT
  · rw [if_pos h2]; exact ⟨_, _, rfl, .inl ⟨by simp only [MAX_COUNT] at h2; omega, rfl, rfl⟩⟩
  rw [if_neg h2]
  by_cases h3 : xs.length + (s.arr i).count ≥ MAX_COUNT
  · rw [if_pos h3]; exact ⟨_, _, rfl, .inl ⟨by simp only [MAX_COUNT] at h3; omega, rfl, rfl⟩⟩
  rw [if_neg h3]
  simp only [MAX_COUNT] at h3
  have hlt : (ab i).length + xs.length < 10240 := by omega
  rcases reserve_spec h 3 i ((s.arr i).count + xs.length) (by omega) oom with ⟨ho, hr⟩ | ⟨s1, hr, hR, hcap⟩
  · rw [hr]
    exact ⟨_, _, rfl, .inr ⟨hlt, .inr ⟨ho, rfl, rfl⟩⟩⟩
  · rw [hr]
    simp only [Option.bind]
    by_cases h4 : 0 < xs.length
    · rw [if_pos h4]
      obtain ⟨s2, e1, e2, e3⟩ := wr_spec hR i xs h4 (by omega)
      rw [hcnt, e1]
      exact ⟨_, _, rfl, .inr ⟨hlt, .inl ⟨rfl, e3⟩⟩⟩
    · rw [if_neg h4]
      have : xs = [] := List.length_eq_zero_iff.1 (by omega)
      refine ⟨_, _, rfl, .inr ⟨hlt, .inl ⟨rfl, ?_⟩⟩⟩
      rw [this, List.append_nil, upd_self]; exact hR

/-- strcat, with the terminating NUL -/
theorem strcat_spec {s : St α} {ab : Contents α} (h : R s ab) (z : α) (i : Nat) (xs : List α) (oom : Bool) :
    ∃ rc s', strcat z s i xs oom = some (rc, s') ∧
      ((10240 ≤ (ab i).length + xs.length ∧ rc = .e2big ∧ s' = s) ∨
       ((ab i).length + xs.length < 10240 ∧
         ((rc = .ok ∧ R s' (upd ab i (ab i ++ xs)) ∧ ∃ p b, (s'.arr i).ptr = some p ∧ s'.heap p = some b ∧
            (ab i ++ xs).length < b.length ∧ b.take ((ab i ++ xs).length + 1) = (ab i ++ xs).map some ++ [some z]) ∨
          (oom = true ∧ rc = .enomem ∧ s' = s)))) := by
  have hcnt := (h.2 i).1
  unfold strcat
  dsimp only
  by_cases h1 : (s.arr i).count ≥ MAX_COUNT
  · rw [if_pos h1]; exact ⟨_, _, rfl, .inl ⟨by simp only [MAX_COUNT] at h1; omega, rfl, rfl⟩⟩
  rw [if_neg h1]
  by_cases h2 : xs.length ≥ MAX_COUNT
  · rw [if_pos h2]; exact ⟨_, _, rfl, .inl ⟨by simp only [MAX_COUNT] at h2; omega, rfl, rfl⟩⟩
  rw [if_neg h2]
  by_cases h3 : xs.length + (s.arr i).count ≥ MAX_COUNT
  · rw [if_pos h3]; exact ⟨_, _, rfl, .inl ⟨by simp only [MAX_COUNT] at h3; omega, rfl, rfl⟩⟩
  rw [if_neg h3]
  simp only [MAX_COUNT] at h3
  have hlt : (ab i).length + xs.length < 10240 := by omega
  rcases reserve_spec h 15 i ((s.arr i).count + xs.length + 1) (by omega) oom with ⟨ho, hr⟩ | ⟨s1, hr, hR, hcap⟩
  · rw [hr]
    exact ⟨_, _, rfl, .inr ⟨hlt, .inr ⟨ho, rfl, rfl⟩⟩⟩
  · rw [hr]
    simp only [Option.bind]
    by_cases h4 : 0 < xs.length
    · rw [if_pos h4]
      obtain ⟨s2, e1, e2, e3⟩ := wr_spec hR i xs h4 (by omega)
      rw [hcnt, e1]
      dsimp only
      have hu : upd ab i (ab i ++ xs) i = ab i ++ xs := by simp [upd]
      obtain ⟨s3, f1, f2, f3⟩ := nul_spec e3 i z (by rw [hu]; simp [St.setArr, e2]; omega)
      rw [f1]
      rw [hu] at f3
      exact ⟨_, _, rfl, .inr ⟨hlt, .inl ⟨rfl, f2, f3⟩⟩⟩
    · rw [if_neg h4]
      have : xs = [] := List.length_eq_zero_iff.1 (by omega)
      obtain ⟨s3, f1, f2, f3⟩ := nul_spec hR i z (by omega)
      dsimp only
      rw [f1]
      refine ⟨_, _, rfl, .inr ⟨hlt, .inl ⟨rfl, ?_, ?_⟩⟩⟩
      · rw [this, List.append_nil, upd_self]; exact f2
      · rw [this, List.append_nil]; exact f3

theorem release_block {s : St α} {ab : Contents α} (h : R s ab) (i : Nat) :
    ∃ s1, (if 0 < (s.arr i).allocated then release s (s.arr i).ptr else some s) = some s1 ∧ s1.arr = s.arr ∧ s1.next = s.next ∧
      (∀ p, Owns s i p → s1.heap p = none) ∧ ∀ p, ¬ Owns s i p → s1.heap p = s.heap p := by
  by_cases h0 : 0 < (s.arr i).allocated
  · obtain ⟨p, b, h1, h2, _, _, _, h6⟩ := R_block h h0
    rw [if_pos h0]
    refine ⟨s.setHeap p none, by simp [release, h1, h2], rfl, rfl, ?_, ?_⟩
    · intro q hq
      have := hq.2; rw [h1] at this; cases this
      simp [St.setHeap]
    · intro q hq
      have : q ≠ p := by rintro rfl; exact hq h6
      simp [St.setHeap, this]
  · rw [if_neg h0]
    exact ⟨s, rfl, rfl, rfl, fun p hp => absurd hp.1 h0, fun p _ => rfl⟩

theorem fini_spec {s : St α} {ab : Contents α} (h : R s ab) (i : Nat) :
    ∃ s', fini s i = some (.ok, s') ∧ R s' (upd ab i []) ∧ (s'.arr i).allocated = 0 := by
  obtain ⟨s1, e1, e2, e3, e4, e5⟩ := release_block h i
  unfold fini
  rw [e1]
  refine ⟨_, rfl, ?_, by simp [St.setArr]⟩
  refine R_update h (fun j hj => by simp [St.setArr, hj, e2]) (fun j q hj ho => ?_) (by simp [St.setArr]) (by simp [St.setArr])
    (by simp) (by simp [St.setArr]) ?_ ?_
  · exact e5 q fun hc => hj (h.1.unique j i q ho hc)
  · intro q hq
    have hq' : s1.heap q ≠ none := hq
    by_cases hc : Owns s i q
    · exact absurd (e4 q hc) hq'
    · rw [e5 q hc] at hq'
      obtain ⟨j, hj⟩ := h.1.owned q hq'
      exact .inl ⟨j, by rintro rfl; exact hc hj, hj⟩
  · intro q hq
    show s1.heap q = none
    have hq' : s.next ≤ q := by simpa [St.setArr, e3] using hq
    by_cases hc : Owns s i q
    · exact e4 q hc
    · rw [e5 q hc]; exact h.1.fresh q hq'

theorem not_owned_fresh {s : St α} {ab : Contents α} (h : R s ab) (j : Nat) : ¬ Owns s j s.next := by
  intro ho
  obtain ⟨p', b', f1, f2, _⟩ := h.1.block j ho.1
  rw [ho.2] at f1; cases f1
  have := h.1.fresh _ (Nat.le_refl s.next); rw [this] at f2; cases f2

theorem initWith_spec {s : St α} {ab : Contents α} (h : R s ab) (i : Nat) (h0 : (s.arr i).allocated = 0) (data : List α)
    (hd : data.length < 65536) : R (initWith s i data) (upd ab i data) := by
  by_cases hem : data = []
  · subst hem
    have : (initWith s i []) = s.setArr i ⟨0, 0, none⟩ := rfl
    rw [this]
    refine R_update h (fun j hj => by simp [St.setArr, hj]) (fun j q hj ho => rfl) (by simp [St.setArr]) (by simp [St.setArr])
      (by simp) (by simp [St.setArr]) ?_ h.1.fresh
    intro q hq
    obtain ⟨j, hj⟩ := h.1.owned q hq
    refine .inl ⟨j, ?_, hj⟩
    rintro rfl
    have := hj.1; omega
  have hpos : 0 < data.length := List.length_pos_iff.2 hem
  have hie : data.isEmpty = false := by cases data with | nil => exact absurd rfl hem | cons => rfl
  have hi : initWith s i data = ({ (s.setHeap s.next (some (data.map some))) with next := s.next + 1 } : St α).setArr i
      ⟨data.length % 65536, data.length % 65536, some s.next⟩ := by simp [initWith, hie]
  rw [hi]
  have hm : data.length % 65536 = data.length := Nat.mod_eq_of_lt hd
  refine R_update h (fun j hj => by simp [St.setArr, St.setHeap, hj]) (fun j q hj ho => ?_)
    (by simp [St.setArr, hm]) (by simp [St.setArr, hm]; exact hd) (by simp [St.setArr, hm]) ?_ ?_ ?_
  · have : q ≠ s.next := by rintro rfl; exact not_owned_fresh h j ho
    simp [St.setArr, St.setHeap, this]
  · intro _
    refine ⟨s.next, data.map some, by simp [St.setArr], by simp [St.setArr, St.setHeap], by simp [St.setArr, hm],
      List.take_of_length_le (by simp), fun j _ => not_owned_fresh h j⟩
  · intro q hq
    simp only [St.setArr, St.setHeap] at hq
    by_cases hqn : q = s.next
    · right; subst hqn
      simp only [Owns, St.setArr, if_true, hm]
      exact ⟨hpos, by simp⟩
    · simp only [hqn, if_false] at hq
      obtain ⟨j, hj⟩ := h.1.owned q hq
      refine .inl ⟨j, ?_, hj⟩
      rintro rfl
      have := hj.1; omega
  · intro q hq
    simp only [St.setArr, St.setHeap] at hq ⊢
    rw [if_neg (by omega)]
    exact h.1.fresh q (by omega)

theorem take_spec {s : St α} {ab : Contents α} (h : R s ab) (d r : Nat) :
    ∃ s', take s d r = some (.ok, s') ∧ R s' (upd (upd ab d (ab r)) r []) := by
  obtain ⟨s1, e1, e2, e3, e4, e5⟩ := release_block h d
  unfold take
  rw [e1]
  refine ⟨_, rfl, ?_⟩
  have harr : ∀ j, ((s1.setArr d (s1.arr r)).setArr r ⟨0, 0, none⟩).arr j =
      if j = r then ⟨0, 0, none⟩ else if j = d then s.arr r else s.arr j := by
    intro j; simp only [St.setArr, e2]
  have hheap : ((s1.setArr d (s1.arr r)).setArr r ⟨0, 0, none⟩).heap = s1.heap := rfl
  have hnext : ((s1.setArr d (s1.arr r)).setArr r ⟨0, 0, none⟩).next = s.next := e3
  generalize (s1.setArr d (s1.arr r)).setArr r ⟨0, 0, none⟩ = s' at harr hheap hnext
  -- the array of which j has the memory now
  have hown : ∀ j p, Owns s' j p ↔ j ≠ r ∧ Owns s (if j = d then r else j) p := by
    intro j p
    unfold Owns
    rw [harr j]
    by_cases hj : j = r
    · simp [hj]
    · by_cases hd : j = d
      · rw [if_neg hj, if_pos hd, if_pos hd]; simp [hj]
      · rw [if_neg hj, if_neg hd, if_neg hd]; simp [hj]
  have hkeep : ∀ j p, j ≠ d → Owns s j p → s'.heap p = s.heap p := by
    intro j p hj ho
    rw [hheap]
    exact e5 p fun hc => hj (h.1.unique j d p ho hc)
  refine ⟨⟨?_, ?_, ?_, ?_, ?_, ?_⟩, ?_⟩
  · intro j; rw [harr j]; split
    · exact Nat.le_refl _
    · split <;> exact h.1.count _
  · intro j; rw [harr j]; split
    · simp
    · split <;> exact h.1.small _
  · intro j h0
    rw [harr j] at h0 ⊢
    split at h0
    · simp at h0
    · rename_i hjr
      split at h0
      · rename_i hjd
        rw [if_neg hjr, if_pos hjd]
        obtain ⟨p, b, h1, h2, h3, _, _, h6⟩ := R_block h h0
        have hrd : r ≠ d := by rintro rfl; exact hjr hjd
        exact ⟨p, b, h1, by rw [hkeep r p hrd h6, h2], h3⟩
      · rename_i hjd
        rw [if_neg hjr, if_neg hjd]
        obtain ⟨p, b, h1, h2, h3, _, _, h6⟩ := R_block h h0
        exact ⟨p, b, h1, by rw [hkeep j p hjd h6, h2], h3⟩
  · intro j k p hj hk
    rw [hown] at hj hk
    have := h.1.unique _ _ p hj.2 hk.2
    split at this <;> split at this <;> grind
  · intro p hp
    rw [hheap] at hp
    by_cases hc : Owns s d p
    · exact absurd (e4 p hc) hp
    · rw [e5 p hc] at hp
      obtain ⟨j, hj⟩ := h.1.owned p hp
      have hjd : j ≠ d := by rintro rfl; exact hc hj
      by_cases hjr : j = r
      · refine ⟨d, (hown d p).2 ⟨?_, ?_⟩⟩
        · rintro rfl; exact hjd hjr
        · simpa [← hjr] using hj
      · exact ⟨j, (hown j p).2 ⟨hjr, by rw [if_neg hjd]; exact hj⟩⟩
  · intro p hp
    rw [hheap]
    rw [hnext] at hp
    by_cases hc : Owns s d p
    · exact e4 p hc
    · rw [e5 p hc]; exact h.1.fresh p hp
  · intro j
    unfold Holds
    rw [harr j]
    unfold upd
    by_cases hjr : j = r
    · simp [hjr]
    · rw [if_neg hjr, if_neg hjr]
      by_cases hjd : j = d
      · rw [if_pos hjd, if_pos hjd]
        have hrd : r ≠ d := by rintro rfl; exact hjr hjd
        refine ⟨(h.2 r).1, fun h0 => ?_⟩
        obtain ⟨p, b, h1, h2, h3⟩ := (h.2 r).2 h0
        have : Owns s r p := ⟨by have := h.1.count r; have := (h.2 r).1; omega, h1⟩
        exact ⟨p, b, h1, by rw [hkeep r p hrd this, h2], h3⟩
      · rw [if_neg hjd, if_neg hjd]
        refine ⟨(h.2 j).1, fun h0 => ?_⟩
        obtain ⟨p, b, h1, h2, h3⟩ := (h.2 j).2 h0
        have : Owns s j p := ⟨by have := h.1.count j; have := (h.2 j).1; omega, h1⟩
        exact ⟨p, b, h1, by rw [hkeep j p hjd this, h2], h3⟩

theorem copy_spec {s : St α} {ab : Contents α} (h : R s ab) (z : α) (d r : Nat) (oom : Bool) :
    ∃ rc s', copy z s d r oom = some (rc, s') ∧
      ((rc = .ok ∧ R s' (upd ab d (ab r)) ∧ ((s.arr r).count < (s.arr r).allocated → ∃ p b, (s'.arr d).ptr = some p ∧ s'.heap p = some b ∧
            (ab r).length < b.length ∧ b.take ((ab r).length + 1) = (ab r).map some ++ [some z])) ∨
       (oom = true ∧ rc = .minus1 ∧ s' = s)) := by
  have hcnt := (h.2 r).1
  have hcap := h.1.count r
  unfold copy
  dsimp only
  by_cases h0 : 0 < (s.arr r).allocated
  · rw [if_pos h0]
    cases oom with
    | true => exact ⟨_, _, rfl, .inr ⟨rfl, rfl, rfl⟩⟩
    | false =>
      simp only [Bool.false_eq_true, if_false]
      obtain ⟨p, b, h1, h2, h3, h4, h5, h6⟩ := R_block h h0
      have hpn : p ≠ s.next := by omega
      generalize hal : (s.arr r).allocated = al at *
      have e1 : rd (alloc s al).1 (s.arr r).ptr (s.arr r).count = some ((ab r).map some) := by
        have : (ab r).length ≤ b.length := by omega
        simp [rd, alloc, St.setHeap, h1, hpn, h2, hcnt, this, h4]
      rw [e1]
      simp only [Option.bind]
      have e3 : 0 + ((ab r).map some).length ≤ (List.replicate al (none : Option α)).length := by simp; omega
      have e4 := wr_eq (s := (alloc s al).1) (p := s.next) (b := List.replicate al none) (by simp [alloc, St.setHeap]) e3
      have e5 : (alloc s al).2 = s.next := rfl
      rw [e5, e4]
      simp only
      -- the new block, terminated if there is space
      have hnul : ∃ s3 nb, (if al > (s.arr r).count then
            wr ((alloc s al).1.setHeap s.next (some (List.take 0 (List.replicate al none) ++ List.map some (ab r) ++
              List.drop (0 + (List.map some (ab r)).length) (List.replicate al none)))) (some s.next) (s.arr r).count [some z]
          else some ((alloc s al).1.setHeap s.next (some (List.take 0 (List.replicate al none) ++ List.map some (ab r) ++
              List.drop (0 + (List.map some (ab r)).length) (List.replicate al none))))) = some s3 ∧ s3.arr = s.arr ∧ s3.next = s.next + 1 ∧
          (∀ q, q ≠ s.next → s3.heap q = s.heap q) ∧ s3.heap s.next = some nb ∧ nb.length = al ∧ nb.take (ab r).length = (ab r).map some ∧
          ((ab r).length < al → nb.take ((ab r).length + 1) = (ab r).map some ++ [some z]) := by
        by_cases hsp : al > (s.arr r).count
        · rw [if_pos hsp]
          have e6 := wr_eq (s := (alloc s al).1.setHeap s.next (some (List.take 0 (List.replicate al none) ++ List.map some (ab r) ++
              List.drop (0 + (List.map some (ab r)).length) (List.replicate al none)))) (p := s.next) (off := (s.arr r).count) (xs := [some z])
              (b := List.take 0 (List.replicate al none) ++ List.map some (ab r) ++ List.drop (0 + (List.map some (ab r)).length) (List.replicate al none))
              (by simp only [St.setHeap, if_true]) (by simp; omega)
          rw [e6]
          refine ⟨_, _, rfl, rfl, rfl, ?_, by simp only [St.setHeap, if_true]; rfl, ?_, ?_, ?_⟩
          · intro q hq; simp [St.setHeap, alloc, hq]
          · simp; omega
          · rw [hcnt]
            simp only [List.take_zero, List.nil_append, List.append_assoc]
            rw [List.take_append_of_le_length (by simp), List.take_take, Nat.min_self, List.take_append_of_le_length (by simp)]
            exact List.take_of_length_le (by simp)
          · intro _
            rw [hcnt]
            simp only [List.take_zero, List.nil_append]
            have ht : ∀ X : List (Option α), List.take (ab r).length (List.map some (ab r) ++ X) = List.map some (ab r) := by
              intro X; rw [List.take_append_of_le_length (by simp), List.take_of_length_le (by simp)]
            rw [ht, List.take_append_of_le_length (by simp), List.take_of_length_le (by simp)]
        · rw [if_neg hsp]
          refine ⟨_, _, rfl, rfl, rfl, ?_, by simp only [St.setHeap, if_true]; rfl, ?_, ?_, fun hc => by omega⟩
          · intro q hq; simp [St.setHeap, alloc, hq]
          · simp; omega
          · simp only [List.take_zero, List.nil_append]
            rw [List.take_append_of_le_length (by simp)]
            exact List.take_of_length_le (by simp)
      obtain ⟨s3, nb, g1, g2, g3, g4, g5, g6, g7, g8⟩ := hnul
      rw [g1]
      simp only
      have hrel : ∃ s4, (if 0 < (s3.arr d).allocated then release s3 (s3.arr d).ptr else some s3) = some s4 ∧ s4.arr = s.arr ∧
          s4.next = s.next + 1 ∧ s4.heap s.next = some nb ∧ (∀ q, q ≠ s.next → Owns s d q → s4.heap q = none) ∧
          ∀ q, q ≠ s.next → ¬ Owns s d q → s4.heap q = s.heap q := by
        rw [g2]
        by_cases hd : 0 < (s.arr d).allocated
        · rw [if_pos hd]
          obtain ⟨p', b', f1, f2, _, _, f5, f6⟩ := R_block h hd
          have hne : p' ≠ s.next := by omega
          refine ⟨s3.setHeap p' none, by simp [release, f1, g4 p' hne, f2], g2, g3, ?_, ?_, ?_⟩
          · simp only [St.setHeap, Ne.symm hne, if_false]; exact g5
          · intro q _ hq
            have := hq.2; rw [f1] at this; cases this
            simp [St.setHeap]
          · intro q hqn hq
            have : q ≠ p' := by rintro rfl; exact hq f6
            simp only [St.setHeap, this, if_false]; exact g4 q hqn
        · rw [if_neg hd]
          exact ⟨s3, rfl, g2, g3, g5, fun q _ ho => absurd ho.1 hd, fun q hqn _ => g4 q hqn⟩
      obtain ⟨s4, k1, k2, k3, k4, k5, k6⟩ := hrel
      rw [k1]
      refine ⟨_, _, rfl, .inl ⟨rfl, ?_, ?_⟩⟩
      · refine R_update h (fun j hj => by simp [St.setArr, hj, k2]) (fun j q hj ho => ?_) (by simp [St.setArr, hcnt])
          (by simp only [St.setArr, if_true]; have := h.1.small r; omega) (by simp only [St.setArr, if_true]; omega) ?_ ?_ ?_
        · have hqn : q ≠ s.next := by rintro rfl; exact not_owned_fresh h j ho
          exact k6 q hqn fun hc => hj (h.1.unique j d q ho hc)
        · intro _
          refine ⟨s.next, nb, by simp [St.setArr], k4, by simp only [St.setArr, if_true]; omega, g7, fun j _ => not_owned_fresh h j⟩
        · intro q hq
          have hq' : s4.heap q ≠ none := hq
          by_cases hqn : q = s.next
          · right; subst hqn
            simp only [Owns, St.setArr, if_true]
            exact ⟨by omega, trivial⟩
          · by_cases hc : Owns s d q
            · exact absurd (k5 q hqn hc) hq'
            · rw [k6 q hqn hc] at hq'
              obtain ⟨j, hj⟩ := h.1.owned q hq'
              exact .inl ⟨j, by rintro rfl; exact hc hj, hj⟩
        · intro q hq
          show s4.heap q = none
          have hq' : s.next + 1 ≤ q := by simpa [St.setArr, k3] using hq
          by_cases hc : Owns s d q
          · exact k5 q (by omega) hc
          · rw [k6 q (by omega) hc]; exact h.1.fresh q (by omega)
      · intro hlt
        exact ⟨s.next, nb, by simp [St.setArr], k4, by omega, g8 (by omega)⟩
  · rw [if_neg h0]
    have hab : ab r = [] := List.length_eq_zero_iff.1 (by omega)
    have hc0 : (s.arr r).count = 0 := by omega
    have ha0 : (s.arr r).allocated = 0 := by omega
    obtain ⟨s', f1, f2, _⟩ := fini_spec h d
    obtain ⟨s1, e1, e2, e3, e4, e5⟩ := release_block h d
    unfold fini at f1
    rw [e1] at f1 ⊢
    simp only [Option.bind, Option.some.injEq, Prod.mk.injEq, true_and] at f1
    refine ⟨_, _, rfl, .inl ⟨rfl, ?_, fun hc => by omega⟩⟩
    rw [hab, hc0, ha0, f1]; exact f2

/-- One operation: it accesses memory properly, and the contents change as specified. -/
theorem step_spec {s : St α} {ab : Contents α} (h : R s ab) (z : α) (oom : Bool) (op : Op α)
    (hl : ∀ i data, op = .finiInitWith i data → data.length < 65536) :
    ∃ rc s' ab', step z s oom op = some (rc, s') ∧ R s' ab' ∧ Does oom ab op rc ab' := by
  cases op with
  | add i xs =>
    obtain ⟨rc, s', h1, h2⟩ := addElems_spec h i xs oom
    rcases h2 with ⟨h3, rfl, rfl⟩ | ⟨h3, ⟨rfl, h4⟩ | ⟨h4, rfl, rfl⟩⟩
    · exact ⟨_, _, _, h1, h, .addBig h3⟩
    · exact ⟨_, _, _, h1, h4, .add h3⟩
    · exact ⟨_, _, _, h1, h, .addMem h4 h3⟩
  | copyData i xs =>
    have hu : upd ab i [] i = [] := by simp [upd]
    obtain ⟨rc, s', h1, h2⟩ := addElems_spec (R_clear h i) i xs oom
    rw [hu, upd_upd] at h2
    simp only [List.length_nil, Nat.zero_add, List.nil_append] at h2
    rcases h2 with ⟨h3, rfl, rfl⟩ | ⟨h3, ⟨rfl, h4⟩ | ⟨h4, rfl, rfl⟩⟩
    · exact ⟨_, _, _, h1, R_clear h i, .setBig h3⟩
    · exact ⟨_, _, _, h1, h4, .set h3⟩
    · exact ⟨_, _, _, h1, R_clear h i, .setMem h4 h3⟩
  | strcat i xs =>
    obtain ⟨rc, s', h1, h2⟩ := strcat_spec h z i xs oom
    rcases h2 with ⟨h3, rfl, rfl⟩ | ⟨h3, ⟨rfl, h4, _⟩ | ⟨h4, rfl, rfl⟩⟩
    · exact ⟨_, _, _, h1, h, .catBig h3⟩
    · exact ⟨_, _, _, h1, h4, .cat h3⟩
    · exact ⟨_, _, _, h1, h, .catMem h4 h3⟩
  | strcpy i xs =>
    have hu : upd ab i [] i = [] := by simp [upd]
    obtain ⟨rc, s', h1, h2⟩ := strcat_spec (R_clear h i) z i xs oom
    rw [hu, upd_upd] at h2
    simp only [List.length_nil, Nat.zero_add, List.nil_append] at h2
    rcases h2 with ⟨h3, rfl, rfl⟩ | ⟨h3, ⟨rfl, h4, _⟩ | ⟨h4, rfl, rfl⟩⟩
    · exact ⟨_, _, _, h1, R_clear h i, .cpyBig h3⟩
    · exact ⟨_, _, _, h1, h4, .cpy h3⟩
    · exact ⟨_, _, _, h1, R_clear h i, .cpyMem h4 h3⟩
  | take d r =>
    obtain ⟨s', h1, h2⟩ := take_spec h d r
    exact ⟨_, _, _, h1, h2, .take⟩
  | copy d r =>
    obtain ⟨rc, s', h1, ⟨rfl, h2, _⟩ | ⟨h2, rfl, rfl⟩⟩ := copy_spec h z d r oom
    · exact ⟨_, _, _, h1, h2, .copy⟩
    · exact ⟨_, _, _, h1, h, .copyMem h2⟩
  | fini i =>
    obtain ⟨s', h1, h2, _⟩ := fini_spec h i
    exact ⟨_, _, _, h1, h2, .fini⟩
  | finiInitWith i data =>
    obtain ⟨s', h1, h2, h3⟩ := fini_spec h i
    refine ⟨_, _, _, by simp only [step, h1, Option.bind]; rfl, ?_, .initWith⟩
    exact initWith_spec h2 i h3 data (hl i data rfl) |> fun h => by rw [upd_upd] at h; exact h

/-! ## C25: append -/

/-- Appending: the old elements followed by the new ones if they are less than 10240 in all (or ENOMEM and no
    change, if an allocation failed), otherwise E2BIG and no change. Other arrays keep their contents. -/
theorem C25_append {s : St α} {ab : Contents α} (h : R s ab) (i : Nat) (xs : List α) (oom : Bool) :
    ∃ rc s', addElems s i xs oom = some (rc, s') ∧
      ((ab i).length + xs.length < 10240 → oom = false → rc = .ok ∧ R s' (upd ab i (ab i ++ xs))) ∧
      ((ab i).length + xs.length < 10240 → rc = .ok ∧ R s' (upd ab i (ab i ++ xs)) ∨ rc = .enomem ∧ R s' ab) ∧
      (10240 ≤ (ab i).length + xs.length → rc = .e2big ∧ s' = s) := by
  obtain ⟨rc, s', h1, h2⟩ := addElems_spec h i xs oom
  refine ⟨rc, s', h1, ?_, ?_, ?_⟩ <;> rcases h2 with ⟨h3, rfl, rfl⟩ | ⟨h3, ⟨rfl, h4⟩ | ⟨h4, rfl, rfl⟩⟩
  · intro hc; omega
  · exact fun _ _ => ⟨rfl, h4⟩
  · intro _ hc; rw [hc] at h4; cases h4
  · intro hc; omega
  · exact fun _ => .inl ⟨rfl, h4⟩
  · exact fun _ => .inr ⟨rfl, h⟩
  · exact fun _ => ⟨rfl, rfl⟩
  · intro hc; omega
  · intro hc; omega

/-- C25. Initialising an array that owns no memory makes it empty and leaves the others alone. -/
theorem C25_init {s : St α} {ab : Contents α} (h : R s ab) (i : Nat) (h0 : (s.arr i).allocated = 0) :
    R (init s i) (upd ab i []) ∧ isEmpty (init s i) i = true := by
  refine ⟨?_, by simp [isEmpty, init, St.setArr]⟩
  obtain ⟨s', e, hr, _⟩ := fini_spec h i
  have hf : fini s i = some (.ok, init s i) := by simp [fini, h0, init]
  rw [hf] at e
  simp only [Option.some.injEq, Prod.mk.injEq, true_and] at e
  rw [e]; exact hr

/-- Every history of a program: no operation touches memory that it must not touch, and the results and the
    contents are those of the specification. -/
theorem C25_histories (z : α) (ops : List (Op α × Bool)) (hl : Legal ops) :
    ∃ rcs s ab, run z start ops = some (rcs, s) ∧ Did (fun _ => []) ops rcs ab ∧ R s ab := by
  have key : ∀ (ops : List (Op α × Bool)), Legal ops → ∀ s ab, R s ab →
      ∃ rcs s' ab', run z s ops = some (rcs, s') ∧ Did ab ops rcs ab' ∧ R s' ab' := by
    intro ops
    induction ops with
    | nil => intro _ s ab h; exact ⟨_, _, _, rfl, .nil, h⟩
    | cons o ops ih =>
      intro hl s ab h
      obtain ⟨op, oom⟩ := o
      obtain ⟨rc, s', ab', h1, h2, h3⟩ := step_spec h z oom op fun i data he => hl (op, oom) (by simp) i data he
      obtain ⟨rcs, s'', ab'', g1, g2, g3⟩ := ih (fun o ho => hl o (by simp [ho])) s' ab' h2
      exact ⟨_, _, _, by simp only [run, h1, Option.bind, g1], .cons h3 g2, g3⟩
  exact key ops hl _ _ start_R

/-- Without failing allocations a history has one outcome only. -/
theorem C25_deterministic (ops : List (Op α × Bool)) (ho : ∀ o ∈ ops, o.2 = false) (ab : Contents α) {r1 r2 : List Rc} {a1 a2 : Contents α}
    (h1 : Did ab ops r1 a1) (h2 : Did ab ops r2 a2) : r1 = r2 ∧ a1 = a2 := by
  have one : ∀ {ab : Contents α} {op rc rc' a a'}, Does false ab op rc a → Does false ab op rc' a' → rc = rc' ∧ a = a' := by
    intro ab op rc rc' a a' h h'
    cases h <;> cases h' <;> first | exact ⟨rfl, rfl⟩ | omega | contradiction
  induction h1 generalizing r2 a2 with
  | nil => cases h2; exact ⟨rfl, rfl⟩
  | cons d1 _ ih =>
    cases h2 with
    | cons d2 g2 =>
      have hoo := ho _ List.mem_cons_self
      dsimp only at hoo
      subst hoo
      obtain ⟨rfl, rfl⟩ := one d1 d2
      obtain ⟨rfl, rfl⟩ := ih (fun o h => ho o (by simp [h])) g2
      exact ⟨rfl, rfl⟩

/-! ## C26: strings -/

/-- strcat yields the concatenation, NUL-terminated, as a C program sees it (C strings contain no NUL). -/
theorem C26_strcat [DecidableEq α] {s : St α} {ab : Contents α} (h : R s ab) (z : α) (i : Nat) (xs : List α) (h1 : z ∉ ab i) (h2 : z ∉ xs)
    (hlen : (ab i).length + xs.length < 10240) :
    ∃ s', strcat z s i xs false = some (.ok, s') ∧ R s' (upd ab i (ab i ++ xs)) ∧ Text z s' i (ab i ++ xs) := by
  obtain ⟨rc, s', g1, g2⟩ := strcat_spec h z i xs false
  rcases g2 with ⟨h3, rfl, rfl⟩ | ⟨h3, ⟨rfl, h4, p, b, f1, f2, f3, f4⟩ | ⟨h4, rfl, rfl⟩⟩
  · omega
  · exact ⟨s', g1, h4, by simp [h1, h2], p, b, f1, f2, f3, f4⟩
  · cases h4

/-- strcpy replaces the text. -/
theorem C26_strcpy [DecidableEq α] {s : St α} {ab : Contents α} (h : R s ab) (z : α) (i : Nat) (xs : List α) (h2 : z ∉ xs)
    (hlen : xs.length < 10240) :
    ∃ s', strcpy z s i xs false = some (.ok, s') ∧ R s' (upd ab i xs) ∧ Text z s' i xs := by
  have hu : upd ab i [] i = [] := by simp [upd]
  obtain ⟨s', g1, g2, g3⟩ := C26_strcat (R_clear h i) z i xs (by rw [hu]; simp) h2 (by rw [hu]; simpa using hlen)
  rw [hu, List.nil_append] at g3
  rw [hu, List.nil_append, upd_upd] at g2
  exact ⟨s', g1, g2, g3⟩

/-- A deep copy of a string shows the same text. -/
theorem C26_copy [DecidableEq α] {s : St α} {ab : Contents α} (h : R s ab) (z : α) (d r : Nat) (ht : Text z s r (ab r)) :
    ∃ s', copy z s d r false = some (.ok, s') ∧ R s' (upd ab d (ab r)) ∧ ((s.arr r).count < (s.arr r).allocated → Text z s' d (ab r)) := by
  obtain ⟨rc, s', g1, g2⟩ := copy_spec h z d r false
  rcases g2 with ⟨rfl, h4, h5⟩ | ⟨h4, _⟩
  · exact ⟨s', g1, h4, fun hc => ⟨ht.1, h5 hc⟩⟩
  · cases h4

/-- strcpy_out writes the first buf_sz - 1 characters at most and a NUL, within the buffer. -/
theorem C26_strcpy_out {s : St α} {ab : Contents α} (h : R s ab) (z : α) (i sz : Nat) (hsz : 0 < sz) :
    strcpyOut z s i sz = some (((ab i).take (sz - 1)).map some ++ [some z]) ∧
    (((ab i).take (sz - 1)).map some ++ [some z]).length ≤ sz := by
  have hcnt := (h.2 i).1
  have hcap := h.1.count i
  refine ⟨?_, by simp; omega⟩
  unfold strcpyOut
  dsimp only
  rw [hcnt]
  have hn : (if (ab i).length ≥ sz then (if sz = 0 then 2 ^ 64 - 1 else sz - 1) else (ab i).length) = min (ab i).length (sz - 1) := by
    split
    · rw [if_neg (by omega)]; omega
    · omega
  rw [hn]
  have htk : (ab i).take (sz - 1) = (ab i).take (min (ab i).length (sz - 1)) := by
    rw [List.take_eq_take_iff]; omega
  by_cases h0 : min (ab i).length (sz - 1) = 0
  · rw [if_pos h0, htk, h0]; simp
  · rw [if_neg h0]
    obtain ⟨p, b, h1, h2, h3⟩ := (h.2 i).2 (by omega)
    obtain ⟨p', b', f1, f2, f3, _⟩ := R_block h (i := i) (by omega)
    rw [h1] at f1; cases f1
    rw [h2] at f2; cases f2
    have hle : min (ab i).length (sz - 1) ≤ b.length := by omega
    simp only [rd, h1, Option.bind, h2]
    rw [if_pos hle]
    simp only
    rw [htk, List.map_take, ← h3, List.take_take, Nat.min_eq_left (Nat.min_le_left _ _)]

/-- Where the code breaks the claim: a buffer of size 0 is overrun; memory outside the string is read. -/
theorem C26_strcpy_out_zero {s : St α} {ab : Contents α} (h : R s ab) (z : α) (i : Nat) : strcpyOut z s i 0 = none := by
  unfold strcpyOut
  simp only [Nat.zero_le, ge_iff_le, if_true]
  rw [if_neg (by decide)]
  unfold rd
  cases hp : (s.arr i).ptr with
  | none => rfl
  | some p =>
    simp only [Option.bind]
    cases hb : s.heap p with
    | none => rfl
    | some b =>
      simp only
      obtain ⟨j, hj⟩ := h.1.owned p (by rw [hb]; simp)
      obtain ⟨p', b', f1, f2, f3⟩ := h.1.block j hj.1
      rw [hj.2] at f1; cases f1
      rw [hb] at f2; cases f2
      have := h.1.small j
      rw [if_neg (by omega)]

/-- Where the code breaks the claim: a strcpy that fails has dropped the contents, while the text a C program
    sees is still the old one. -/
theorem C26_failed_strcpy [DecidableEq α] {s : St α} {ab : Contents α} (h : R s ab) (z : α) (i : Nat) (xs : List α)
    (hlen : 10240 ≤ xs.length) (ht : Text z s i (ab i)) :
    ∃ s', strcpy z s i xs false = some (.e2big, s') ∧ isEmpty s' i = true ∧ Text z s' i (ab i) := by
  have hu : upd ab i [] i = [] := by simp [upd]
  obtain ⟨rc, s', g1, g2⟩ := strcat_spec (R_clear h i) z i xs false
  rw [hu] at g2
  rcases g2 with ⟨h3, rfl, rfl⟩ | ⟨h3, _⟩
  · refine ⟨_, g1, by simp [isEmpty, St.setArr], ?_⟩
    obtain ⟨t1, p, b, t2, t3⟩ := ht
    exact ⟨t1, p, b, by simpa [St.setArr] using t2, t3⟩
  · simp at h3; omega

/-! ## C27: comparison -/

theorem memcmp_self (a : List UInt8) : memcmp a a = 0 := by
  induction a with
  | nil => rfl
  | cons x a ih => simp [memcmp, ih]

theorem toNat_inj {x y : UInt8} (h : x.toNat = y.toNat) : x = y := UInt8.toNat_inj.1 h

theorem memcmp_zero (a b : List UInt8) (hl : a.length = b.length) (h : memcmp a b = 0) : a = b := by
  induction a generalizing b with
  | nil => cases b with | nil => rfl | cons => simp at hl
  | cons x a ih =>
    cases b with
    | nil => simp at hl
    | cons y b =>
      simp only [memcmp] at h
      split at h
      · rename_i he
        rw [he, ih b (by simpa using hl) h]
      · rename_i he
        exact absurd (toNat_inj (by omega)) he

theorem memcmp_anti (a b : List UInt8) : memcmp a b = - memcmp b a := by
  induction a generalizing b with
  | nil => cases b <;> rfl
  | cons x a ih =>
    cases b with
    | nil => rfl
    | cons y b =>
      simp only [memcmp]
      by_cases h : x = y
      · rw [if_pos h, if_pos h.symm]; exact ih b
      · rw [if_neg h, if_neg (Ne.symm h)]; omega

theorem memcmp_trans (a b c : List UInt8) (h1 : a.length = b.length) (h2 : b.length = c.length) (h3 : memcmp a b ≤ 0) (h4 : memcmp b c ≤ 0) :
    memcmp a c ≤ 0 := by
  induction a generalizing b c with
  | nil => cases c <;> simp [memcmp]
  | cons x a ih =>
    cases b with
    | nil => simp at h1
    | cons y b =>
      cases c with
      | nil => simp at h2
      | cons w c =>
        simp only [memcmp] at h3 h4 ⊢
        by_cases e1 : x = y
        · subst e1
          rw [if_pos rfl] at h3
          by_cases e2 : x = w
          · rw [if_pos e2] at h4 ⊢
            exact ih b c (by simpa using h1) (by simpa using h2) h3 h4
          · rw [if_neg e2] at h4 ⊢; exact h4
        · rw [if_neg e1] at h3
          by_cases e2 : y = w
          · subst e2; rw [if_neg e1]; exact h3
          · rw [if_neg e2] at h4
            by_cases e3 : x = w
            · subst e3; exfalso; exact e1 (toNat_inj (by omega))
            · rw [if_neg e3]; omega

/-- The comparison is a total order on contents: zero exactly for equal contents, antisymmetric, transitive. -/
theorem C27_total_order (a b c : List UInt8) :
    (compare a b = 0 ↔ a = b) ∧ compare a b = - compare b a ∧ (compare a b ≤ 0 → compare b c ≤ 0 → compare a c ≤ 0) ∧
    (compare a b ≤ 0 ∨ compare b a ≤ 0) := by
  have anti : compare a b = - compare b a := by
    unfold compare
    by_cases h : a.length = b.length
    · rw [if_neg (by omega), if_neg (by omega)]; exact memcmp_anti a b
    · rw [if_pos (by omega), if_pos (by omega)]; omega
  refine ⟨⟨?_, ?_⟩, anti, ?_, by omega⟩
  · intro h
    unfold compare at h
    by_cases hl : a.length = b.length
    · rw [if_neg (by omega)] at h; exact memcmp_zero a b hl h
    · rw [if_pos (by omega)] at h; omega
  · rintro rfl
    unfold compare
    rw [if_neg (by simp)]; exact memcmp_self a
  · intro h1 h2
    unfold compare at *
    split at h1 <;> split at h2 <;> split <;> try omega
    rename_i e1 e2 e3
    exact memcmp_trans a b c (by omega) (by omega) h1 h2

/-! ## C88: the memory of dynamic arrays -/

/-- Every history: when every array was released, nothing is allocated. -/
theorem C88_no_leak_partial (z : α) (ops : List (Op α × Bool)) (hl : Legal ops) {rcs : List Rc} {s : St α}
    (h : run z start ops = some (rcs, s)) (hr : ∀ i, (s.arr i).allocated = 0) (p : Nat) : s.heap p = none := by
  obtain ⟨rcs', s', ab, h1, _, h3⟩ := C25_histories z ops hl
  rw [h] at h1
  simp only [Option.some.injEq, Prod.mk.injEq] at h1
  obtain ⟨_, rfl⟩ := h1
  cases hp : s.heap p with
  | none => rfl
  | some b =>
    obtain ⟨i, hi⟩ := h3.1.owned p (by rw [hp]; simp)
    have := hi.1; have := hr i; omega

/-- Where the code breaks it: `init_with` 65536 elements records no memory; it is lost. -/
theorem C88_init_with_leaks (z : α) (data : List α) (hd : data.length = 65536) :
    ∃ s, run z start [(.finiInitWith 0 data, false), (.fini 0, false)] = some ([.ok, .ok], s) ∧
      (∀ i, (s.arr i).allocated = 0) ∧ s.heap 0 ≠ none := by
  have hne : data.isEmpty = false := by cases data with | nil => simp at hd | cons => rfl
  refine ⟨⟨fun j => if j = 0 then ⟨0, 0, none⟩ else ⟨0, 0, none⟩, fun q => if q = 0 then some (data.map some) else none, 1⟩, ?_, by simp, by simp⟩
  simp only [run, step, fini, start, Option.bind, Nat.lt_irrefl, if_false, initWith, St.setArr, St.setHeap, hne, hd]
  simp
  funext j; split <;> rfl

/-! ## Examples -/
namespace Examples

/-- string 0 := "hi", appended "!"; copied to 1; 0 handed to 2 -/
def prog : List (Op UInt8 × Bool) :=
  [(.strcpy 0 [0x68, 0x69], false), (.strcat 0 [0x21], false), (.copy 1 0, false), (.take 2 0, false), (.add 1 [7], true), (.fini 2, false), (.fini 1, false)]

theorem legal : Legal prog := by
  intro o ho i data he
  simp only [prog, List.mem_cons, List.not_mem_nil, or_false] at ho
  rcases ho with rfl | rfl | rfl | rfl | rfl | rfl | rfl <;> simp at he

example := C25_histories 0 prog legal
example := C25_append (start_R (α := UInt8)) 0 [1, 2, 3] false
example := C25_deterministic (α := UInt8) (prog.filter fun o => !o.2) (by simp)
example : ∃ s', strcpy (0 : UInt8) start 0 [0x68, 0x69] false = some (.ok, s') ∧ R s' (upd (fun _ => []) 0 [0x68, 0x69]) ∧
    Text 0 s' 0 [0x68, 0x69] := C26_strcpy start_R 0 0 _ (by decide) (by decide)
/-- strcat and copy on the result -/
example : ∃ s', strcat (0 : UInt8) start 0 [0x68] false = some (.ok, s') ∧ ∃ s'', copy 0 s' 1 0 false = some (.ok, s'') :=
  (C26_strcat (start_R (α := UInt8)) 0 0 [0x68] (by simp) (by decide) (by decide)).elim fun s' h =>
    ⟨s', h.1, (C26_copy h.2.1 0 1 0 (by simpa [upd] using h.2.2)).elim fun s'' g => ⟨s'', g.1⟩⟩
example := C26_strcpy_out (start_R (α := UInt8)) 0 0 4 (by decide)
example := C26_strcpy_out_zero (start_R (α := UInt8)) 0 0
example : ∃ s, R s (upd (fun _ => []) 0 [(0x68 : UInt8)]) ∧ Text 0 s 0 [0x68] :=
  (C26_strcpy start_R 0 0 [0x68] (by decide) (by decide)).elim fun s h => ⟨s, h.2⟩
/-- the hypotheses of `C26_failed_strcpy` -/
example (xs : List UInt8) (hx : xs.length = 10240) :
    ∃ s s', strcpy 0 s 0 xs false = some (.e2big, s') ∧ isEmpty s' 0 = true ∧ Text 0 s' 0 [0x68] :=
  (C26_strcpy start_R 0 0 [0x68] (by decide) (by decide)).elim fun s h =>
    ⟨s, by simpa [upd] using C26_failed_strcpy h.2.1 0 0 xs (by omega) (by simpa [upd] using h.2.2)⟩
example := C27_total_order [1, 2] [1, 3] [1, 3]
example : (run 0 start prog).isSome = true ∧ ∀ rcs s, run 0 start prog = some (rcs, s) → (s.arr 0).allocated = 0 ∧ (s.arr 1).allocated = 0 ∧
    (s.arr 2).allocated = 0 := by
  have h : (run 0 start prog).any (fun r => (r.2.arr 0).allocated == 0 && (r.2.arr 1).allocated == 0 && (r.2.arr 2).allocated == 0) = true := by
    decide +kernel
  constructor
  · revert h; cases run 0 start prog <;> simp
  · intro rcs s he
    rw [he] at h
    simpa [and_assoc] using h
example := C88_init_with_leaks (0 : UInt8) (List.replicate 65536 1) List.length_replicate

end Examples

end Verif.DynArray
