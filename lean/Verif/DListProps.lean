import Verif.DList
/-!
  Property C08: histories of list operations keep a family of disjoint, well-formed rings with the
  expected contents, and touch nothing else.
-/
namespace Verif.DList

/-! ## Specification -/
namespace Spec

/-- `next`/`prev` links lead from `a` through the nodes `l` to `b` and back. -/
def Chain (h : Heap) (a : Addr) : List Addr → Addr → Prop
  | [], b => h.next a = b ∧ h.prev b = a
  | x :: l, b => (h.next a = x ∧ h.prev x = a) ∧ Chain h x l b

/-- A well-formed circular list with head node `hd` and entries `xs`. -/
def Ring (h : Heap) (hd : Addr) (xs : List Addr) : Prop := (hd :: xs).Nodup ∧ Chain h hd xs hd

/-- Which lists exist: list head ↦ entries. -/
abbrev Lists := Addr → Option (List Addr)

def upd (A : Lists) (hd : Addr) (xs : List Addr) : Lists := fun a => if a = hd then some xs else A a

/-- A node in no list. -/
def Fresh (A : Lists) (x : Addr) : Prop := ∀ hd xs, A hd = some xs → x ∉ hd :: xs

/-- Memory holds exactly these lists, pairwise disjoint. -/
def Holds (h : Heap) (A : Lists) : Prop :=
  (∀ hd xs, A hd = some xs → Ring h hd xs) ∧
  (∀ hd hd' xs ys, hd ≠ hd' → A hd = some xs → A hd' = some ys → ∀ a ∈ hd :: xs, a ∉ hd' :: ys)

inductive Op where
  | init (hd : Addr)
  | add (x hd : Addr)
  | addTail (x hd : Addr)
  | del (x : Addr)
  | delInit (x : Addr)
  | move (x hd : Addr)
  | moveTail (x hd : Addr)
  | splice (src dst : Addr)
  | removeHead (hd : Addr)
  | removeHeadInit (hd : Addr)
  | removeTail (hd : Addr)
  | removeTailInit (hd : Addr)

/-- `Step A op A' ret nodes`: a legal call `op` in the situation `A` leads to `A'`, returns `ret`, and
    concerns only the nodes in `nodes`. -/
inductive Step (A : Lists) : Op → Lists → Option Addr → List Addr → Prop where
  | init {hd} : Fresh A hd → Step A (.init hd) (upd A hd []) none [hd]
  | add {x hd xs} : A hd = some xs → Fresh A x →
      Step A (.add x hd) (upd A hd (x :: xs)) none (x :: hd :: xs)
  | addTail {x hd xs} : A hd = some xs → Fresh A x →
      Step A (.addTail x hd) (upd A hd (xs ++ [x])) none (x :: hd :: xs)
  | del {x hd l1 l2} : A hd = some (l1 ++ x :: l2) →
      Step A (.del x) (upd A hd (l1 ++ l2)) none (hd :: (l1 ++ x :: l2))
  | delInit {x hd l1 l2} : A hd = some (l1 ++ x :: l2) →
      Step A (.delInit x) (upd A hd (l1 ++ l2)) none (hd :: (l1 ++ x :: l2))
  | move {x hd l1 l2 hd' ys} : A hd = some (l1 ++ x :: l2) → (upd A hd (l1 ++ l2)) hd' = some ys →
      Step A (.move x hd') (upd (upd A hd (l1 ++ l2)) hd' (x :: ys)) none
        (hd :: (l1 ++ x :: l2) ++ hd' :: ys)
  | moveTail {x hd l1 l2 hd' ys} : A hd = some (l1 ++ x :: l2) → (upd A hd (l1 ++ l2)) hd' = some ys →
      Step A (.moveTail x hd') (upd (upd A hd (l1 ++ l2)) hd' (ys ++ [x])) none
        (hd :: (l1 ++ x :: l2) ++ hd' :: ys)
  | splice {src dst xs ys} : src ≠ dst → A src = some xs → A dst = some ys →
      Step A (.splice src dst) (upd (upd A dst (ys ++ xs)) src []) none (src :: xs ++ dst :: ys)
  | removeHead {hd x xs} : A hd = some (x :: xs) →
      Step A (.removeHead hd) (upd A hd xs) (some x) (hd :: x :: xs)
  | removeHeadEmpty {hd} : A hd = some [] → Step A (.removeHead hd) A none []
  | removeHeadInit {hd x xs} : A hd = some (x :: xs) →
      Step A (.removeHeadInit hd) (upd A hd xs) (some x) (hd :: x :: xs)
  | removeHeadInitEmpty {hd} : A hd = some [] → Step A (.removeHeadInit hd) A none []
  | removeTail {hd x xs} : A hd = some (xs ++ [x]) →
      Step A (.removeTail hd) (upd A hd xs) (some x) (hd :: (xs ++ [x]))
  | removeTailEmpty {hd} : A hd = some [] → Step A (.removeTail hd) A none []
  | removeTailInit {hd x xs} : A hd = some (xs ++ [x]) →
      Step A (.removeTailInit hd) (upd A hd xs) (some x) (hd :: (xs ++ [x]))
  | removeTailInitEmpty {hd} : A hd = some [] → Step A (.removeTailInit hd) A none []

end Spec
open Spec

/-- Execute a call on the model. -/
def exec (h : Heap) : Op → Heap × Option Addr
  | .init hd => (headInit h hd, none)
  | .add x hd => (DList.add h x hd, none)
  | .addTail x hd => (DList.addTail h x hd, none)
  | .del x => (DList.del h x, none)
  | .delInit x => (DList.delInit h x, none)
  | .move x hd => (DList.move h x hd, none)
  | .moveTail x hd => (DList.moveTail h x hd, none)
  | .splice s d => (spliceTailInit h s d, none)
  | .removeHead hd => DList.removeHead h hd
  | .removeHeadInit hd => DList.removeHeadInit h hd
  | .removeTail hd => DList.removeTail h hd
  | .removeTailInit hd => DList.removeTailInit h hd

/-- A history of calls each legal when issued: resulting memory and expected lists. -/
inductive Run (h0 : Heap) : Heap → Lists → Prop where
  | start : Run h0 h0 (fun _ => none)
  | step {h A op A' ret nodes} : Run h0 h A → Step A op A' ret nodes → Run h0 (exec h op).1 A'

/-! ## Proofs -/

theorem chain_append {h : Heap} {a x b : Addr} {l1 l2 : List Addr} :
    Chain h a (l1 ++ x :: l2) b ↔ Chain h a l1 x ∧ Chain h x l2 b := by
  induction l1 generalizing a with
  | nil => simp [Chain]
  | cons y l1 ih => simp only [List.cons_append, Chain, ih]; exact and_assoc.symm

theorem chain_frame {h h' : Heap} {a b : Addr} {l : List Addr} (hc : Chain h a l b)
    (hn : ∀ x ∈ a :: l, h'.next x = h.next x) (hp : ∀ x ∈ l ++ [b], h'.prev x = h.prev x) :
    Chain h' a l b := by
  induction l generalizing a with
  | nil => simp only [Chain] at hc ⊢; rw [hn a (by simp), hp b (by simp)]; exact hc
  | cons y l ih =>
    simp only [Chain] at hc ⊢
    rw [hn a (by simp), hp y (by simp)]
    exact ⟨hc.1, ih hc.2 (fun x hx => hn x (List.mem_cons_of_mem _ hx))
      (fun x hx => hp x (by simp at hx ⊢; right; exact hx))⟩

theorem ring_frame {h h' : Heap} {hd : Addr} {xs : List Addr} (hr : Ring h hd xs)
    (hf : ∀ x ∈ hd :: xs, h'.next x = h.next x ∧ h'.prev x = h.prev x) : Ring h' hd xs :=
  ⟨hr.1, chain_frame hr.2 (fun x hx => (hf x hx).1) (fun x hx => (hf x (by simp at hx ⊢; exact hx.symm)).2)⟩

/-- The predecessor of the end of a chain is its last node. -/
theorem chain_prev {h : Heap} {a b : Addr} {l : List Addr} (hc : Chain h a l b) :
    h.prev b = (a :: l).getLast (by simp) ∧ h.next ((a :: l).getLast (by simp)) = b := by
  induction l generalizing a with
  | nil => exact ⟨hc.2, hc.1⟩
  | cons y l ih => simpa using ih hc.2

/-- The successor of the start of a chain is its first node. -/
theorem chain_next {h : Heap} {a b : Addr} {l : List Addr} (hc : Chain h a l b) :
    h.next a = (l ++ [b]).head (by simp) ∧ h.prev ((l ++ [b]).head (by simp)) = a := by
  cases l with
  | nil => exact hc
  | cons y l => exact hc.1

/-- Redirect the end of a chain. -/
theorem chain_reend {h h' : Heap} {a b c : Addr} {l : List Addr} (hc : Chain h a l b)
    (hnd : (a :: l).Nodup)
    (hn : ∀ x ∈ a :: l, x ≠ (a :: l).getLast (by simp) → h'.next x = h.next x)
    (hp : ∀ x ∈ l, h'.prev x = h.prev x)
    (h1 : h'.next ((a :: l).getLast (by simp)) = c) (h2 : h'.prev c = (a :: l).getLast (by simp)) :
    Chain h' a l c := by
  induction l generalizing a with
  | nil => exact ⟨h1, h2⟩
  | cons y l ih =>
    have hne : a ≠ (y :: l).getLast (by simp) := by
      intro e
      have := List.getLast_mem (l := y :: l) (by simp)
      rw [← e] at this
      exact (List.nodup_cons.1 hnd).1 this
    simp only [List.getLast_cons_cons] at hn h1 h2
    refine ⟨⟨?_, ?_⟩, ?_⟩
    · rw [hn a (by simp) hne]; exact hc.1.1
    · rw [hp y (by simp)]; exact hc.1.2
    · exact ih hc.2 (List.nodup_cons.1 hnd).2 (fun x hx => hn x (List.mem_cons_of_mem _ hx))
        (fun x hx => hp x (List.mem_cons_of_mem _ hx)) h1 h2

/-- Join two chains after redirecting the end of the first to the first node of the second. -/
theorem chain_join {h : Heap} {a b : Addr} {l1 l2 : List Addr}
    (h1 : Chain h a l1 ((l2 ++ [b]).head (by simp)))
    (h2 : ∀ y l, l2 = y :: l → Chain h y l b) : Chain h a (l1 ++ l2) b := by
  cases l2 with
  | nil => simpa using h1
  | cons y l => rw [chain_append]; exact ⟨by simpa using h1, h2 y l rfl⟩

theorem ring_del {h : Heap} {hd x : Addr} {l1 l2 : List Addr} (hr : Ring h hd (l1 ++ x :: l2)) :
    Ring (delEntry h x) hd (l1 ++ l2) ∧
    ∀ a, a ∉ hd :: (l1 ++ x :: l2) →
      (delEntry h x).next a = h.next a ∧ (delEntry h x).prev a = h.prev a := by
  obtain ⟨hnd, hc⟩ := hr
  rw [chain_append] at hc
  obtain ⟨hc1, hc2⟩ := hc
  obtain ⟨p1, p2⟩ := chain_prev hc1
  obtain ⟨n1, n2⟩ := chain_next hc2
  have hpm : (hd :: l1).getLast (by simp) ∈ hd :: l1 := List.getLast_mem _
  have hnm : (l2 ++ [hd]).head (by simp) ∈ l2 ++ [hd] := List.head_mem _
  have eN : ∀ a, (delEntry h x).next a =
      if a = (hd :: l1).getLast (by simp) then (l2 ++ [hd]).head (by simp) else h.next a := by
    intro a; simp only [delEntry, delRaw, Heap.setNext, Heap.setPrev, p1, n1]
  have eP : ∀ a, (delEntry h x).prev a =
      if a = (l2 ++ [hd]).head (by simp) then (hd :: l1).getLast (by simp) else h.prev a := by
    intro a; simp only [delEntry, delRaw, Heap.setNext, Heap.setPrev, p1, n1]
  generalize hP : (hd :: l1).getLast (by simp) = P at *
  generalize hN : (l2 ++ [hd]).head (by simp) = N at *
  generalize hh : delEntry h x = h' at *
  have hnd' : (hd :: (l1 ++ l2)).Nodup := by grind
  refine ⟨⟨hnd', ?_⟩, ?_⟩
  · apply chain_join
    · apply chain_reend hc1 (by grind)
      · intro a ha hne
        rw [eN, if_neg (by rw [hP] at hne; exact hne)]
      · intro a ha
        rw [eP, if_neg]
        grind
      · rw [hP, eN, if_pos rfl, hN]
      · rw [hN, eP, if_pos rfl, hP]
    · intro y l e
      subst e
      refine chain_frame hc2.2 ?_ ?_
      · intro a ha
        rw [eN, if_neg]
        grind
      · intro a ha
        simp at hN
        rw [eP, if_neg]
        grind
  · intro a ha
    rw [eN, eP, if_neg, if_neg]
    · exact ⟨rfl, rfl⟩
    · grind
    · grind

theorem ring_add {h : Heap} {hd x : Addr} {xs : List Addr} (hr : Ring h hd xs) (hx : x ∉ hd :: xs) :
    Ring (DList.add h x hd) hd (x :: xs) ∧
    ∀ a, a ∉ x :: hd :: xs → (DList.add h x hd).next a = h.next a ∧ (DList.add h x hd).prev a = h.prev a := by
  obtain ⟨hnd, hc⟩ := hr
  obtain ⟨n1, n2⟩ := chain_next hc
  have hnm : (xs ++ [hd]).head (by simp) ∈ xs ++ [hd] := List.head_mem _
  have eN : ∀ a, (DList.add h x hd).next a = if a = hd then x else if a = x then (xs ++ [hd]).head (by simp) else h.next a := by
    intro a; simp only [DList.add, addRaw, Heap.setNext, Heap.setPrev, n1]
  have eP : ∀ a, (DList.add h x hd).prev a = if a = x then hd else if a = (xs ++ [hd]).head (by simp) then x else h.prev a := by
    intro a; simp only [DList.add, addRaw, Heap.setNext, Heap.setPrev, n1]
  generalize hN : (xs ++ [hd]).head (by simp) = N at *
  generalize hh : DList.add h x hd = h' at *
  refine ⟨⟨by grind, ?_⟩, ?_⟩
  · refine ⟨⟨by rw [eN, if_pos rfl], by rw [eP, if_pos rfl]⟩, ?_⟩
    cases xs with
    | nil =>
      simp at hN
      subst hN
      refine ⟨?_, ?_⟩
      · rw [eN, if_neg (by grind), if_pos rfl]
      · rw [eP, if_neg (by grind), if_pos rfl]
    | cons y l =>
      simp at hN
      subst hN
      refine ⟨⟨?_, ?_⟩, ?_⟩
      · rw [eN, if_neg (by grind), if_pos rfl]
      · rw [eP, if_neg (by grind), if_pos rfl]
      · refine chain_frame hc.2 ?_ ?_
        · intro a ha; rw [eN, if_neg (by grind), if_neg (by grind)]
        · intro a ha; rw [eP, if_neg (by grind), if_neg (by grind)]
  · intro a ha
    rw [eN, eP, if_neg (by grind), if_neg (by grind), if_neg (by grind), if_neg (by grind)]
    exact ⟨rfl, rfl⟩

theorem ring_addTail {h : Heap} {hd x : Addr} {xs : List Addr} (hr : Ring h hd xs) (hx : x ∉ hd :: xs) :
    Ring (DList.addTail h x hd) hd (xs ++ [x]) ∧
    ∀ a, a ∉ x :: hd :: xs → (DList.addTail h x hd).next a = h.next a ∧ (DList.addTail h x hd).prev a = h.prev a := by
  obtain ⟨hnd, hc⟩ := hr
  obtain ⟨p1, p2⟩ := chain_prev hc
  have hpm : (hd :: xs).getLast (by simp) ∈ hd :: xs := List.getLast_mem _
  have eN : ∀ a, (DList.addTail h x hd).next a = if a = (hd :: xs).getLast (by simp) then x else if a = x then hd else h.next a := by
    intro a; simp only [DList.addTail, addRaw, Heap.setNext, Heap.setPrev, p1]
  have eP : ∀ a, (DList.addTail h x hd).prev a = if a = x then (hd :: xs).getLast (by simp) else if a = hd then x else h.prev a := by
    intro a; simp only [DList.addTail, addRaw, Heap.setNext, Heap.setPrev, p1]
  generalize hP : (hd :: xs).getLast (by simp) = P at *
  generalize hh : DList.addTail h x hd = h' at *
  refine ⟨⟨by grind, ?_⟩, ?_⟩
  · rw [chain_append]
    constructor
    · apply chain_reend hc (by grind)
      · intro a ha hne
        rw [hP] at hne
        rw [eN, if_neg hne, if_neg (by grind)]
      · intro a ha
        rw [eP, if_neg (by grind), if_neg (by grind)]
      · rw [hP, eN, if_pos rfl]
      · rw [hP, eP, if_pos rfl]
    · refine ⟨?_, ?_⟩
      · rw [eN, if_neg (by grind), if_pos rfl]
      · rw [eP, if_neg (by grind), if_pos rfl]
  · intro a ha
    rw [eN, eP, if_neg (by grind), if_neg (by grind), if_neg (by grind), if_neg (by grind)]
    exact ⟨rfl, rfl⟩

theorem ring_init (h : Heap) (x : Addr) : Ring (headInit h x) x [] ∧
    ∀ a, a ≠ x → (headInit h x).next a = h.next a ∧ (headInit h x).prev a = h.prev a := by
  refine ⟨⟨by simp, by simp [Chain, headInit, Heap.setNext, Heap.setPrev]⟩, ?_⟩
  intro a ha; simp [headInit, Heap.setNext, Heap.setPrev, ha]

theorem ring_splice {h : Heap} {s d : Addr} {xs ys : List Addr} (hs : Ring h s xs) (hd : Ring h d ys)
    (hdis : ∀ a ∈ s :: xs, a ∉ d :: ys) :
    Ring (spliceTailInit h s d) d (ys ++ xs) ∧ Ring (spliceTailInit h s d) s [] ∧
    ∀ a, a ∉ s :: xs ++ d :: ys →
      (spliceTailInit h s d).next a = h.next a ∧ (spliceTailInit h s d).prev a = h.prev a := by
  obtain ⟨snd, sc⟩ := hs
  obtain ⟨dnd, dc⟩ := hd
  cases xs with
  | nil =>
    have he : empty h s = true := by simp [empty, sc.1]
    have : spliceTailInit h s d = h := by simp [spliceTailInit, he]
    rw [this]
    exact ⟨⟨by simpa using dnd, by simpa using dc⟩, ⟨snd, sc⟩, fun a _ => ⟨rfl, rfl⟩⟩
  | cons f l =>
    obtain ⟨p1, p2⟩ := chain_prev sc
    obtain ⟨q1, q2⟩ := chain_prev dc
    have hfs : f ≠ s := by grind
    have he : empty h s = false := by simp [empty, sc.1.1, hfs]
    have hlm : (s :: f :: l).getLast (by simp) ∈ f :: l := by
      simp only [List.getLast_cons_cons]; exact List.getLast_mem _
    have hqm : (d :: ys).getLast (by simp) ∈ d :: ys := List.getLast_mem _
    have eN : ∀ a, (spliceTailInit h s d).next a = if a = s then s else
        if a = (s :: f :: l).getLast (by simp) then d else
        if a = (d :: ys).getLast (by simp) then f else h.next a := by
      intro a
      simp only [spliceTailInit, he, Bool.not_false, if_true, headInit, spliceRaw, Heap.setNext, Heap.setPrev, p1, q1, sc.1.1]
    have eP : ∀ a, (spliceTailInit h s d).prev a = if a = s then s else
        if a = d then (s :: f :: l).getLast (by simp) else
        if a = f then (d :: ys).getLast (by simp) else h.prev a := by
      intro a
      simp only [spliceTailInit, he, Bool.not_false, if_true, headInit, spliceRaw, Heap.setNext, Heap.setPrev, p1, q1, sc.1.1]
    have hL' : (s :: f :: l).getLast (by simp) = (f :: l).getLast (by simp) := by
      simp only [List.getLast_cons_cons]
    generalize hL : (s :: f :: l).getLast (by simp) = L at *
    generalize hQ : (d :: ys).getLast (by simp) = Q at *
    generalize hh : spliceTailInit h s d = h' at *
    refine ⟨⟨by grind, ?_⟩, ⟨by simp, ?_, ?_⟩, ?_⟩
    · rw [chain_append]
      constructor
      · apply chain_reend dc dnd
        · intro a ha hne
          rw [hQ] at hne
          rw [eN, if_neg (by grind), if_neg (by grind), if_neg hne]
        · intro a ha
          rw [eP, if_neg (by grind), if_neg (by grind), if_neg (by grind)]
        · rw [hQ, eN, if_neg (by grind), if_neg (by grind), if_pos rfl]
        · rw [hQ, eP, if_neg (by grind), if_neg (by have := hdis f (by simp); grind), if_pos rfl]
      · apply chain_reend sc.2 (by grind)
        · intro a ha hne
          rw [eN, if_neg (by grind), if_neg (by grind), if_neg (by grind)]
        · intro a ha
          rw [eP, if_neg (by grind), if_neg (by grind), if_neg (by grind)]
        · rw [← hL', eN, if_neg (by grind), if_pos rfl]
        · rw [← hL', eP, if_neg (by grind), if_pos rfl]
    · rw [eN, if_pos rfl]
    · rw [eP, if_pos rfl]
    · intro a ha
      rw [eN, eP, if_neg (by grind), if_neg (by grind), if_neg (by grind), if_neg (by grind),
        if_neg (by grind), if_neg (by grind)]
      exact ⟨rfl, rfl⟩

/-! ### Families of lists -/

theorem upd_same (A : Lists) (hd : Addr) (xs : List Addr) : upd A hd xs hd = some xs := by simp [upd]
theorem upd_other {A : Lists} {hd a : Addr} {xs : List Addr} (h : a ≠ hd) : upd A hd xs a = A a := by
  simp [upd, h]

/-- Replacing one list when only nodes of that list (and fresh ones) are touched. -/
theorem holds_upd {h h' : Heap} {A : Lists} {hd : Addr} {xs' : List Addr} (nodes : List Addr)
    (hA : Holds h A) (hr : Ring h' hd xs') (hsub : ∀ a ∈ hd :: xs', a ∈ nodes)
    (hdis : ∀ k ys, k ≠ hd → A k = some ys → ∀ a ∈ k :: ys, a ∉ nodes)
    (hf : ∀ a, a ∉ nodes → h'.next a = h.next a ∧ h'.prev a = h.prev a) :
    Holds h' (upd A hd xs') := by
  refine ⟨?_, ?_⟩
  · intro k ys hk
    by_cases e : k = hd
    · subst e; rw [upd_same] at hk; cases hk; exact hr
    · rw [upd_other e] at hk
      exact ring_frame (hA.1 k ys hk) (fun a ha => hf a (hdis k ys e hk a ha))
  · intro k k' xs ys hne h1 h2 a ha
    by_cases e : k = hd
    · subst e
      rw [upd_same] at h1; cases h1
      have hne' : k' ≠ k := fun e => hne e.symm
      rw [upd_other hne'] at h2
      intro hmem
      exact hdis k' ys hne' h2 a hmem (hsub a ha)
    · rw [upd_other e] at h1
      by_cases e' : k' = hd
      · subst e'
        rw [upd_same] at h2; cases h2
        intro hmem
        exact hdis k xs e h1 a ha (hsub a hmem)
      · rw [upd_other e'] at h2
        exact hA.2 k k' xs ys hne h1 h2 a ha

theorem holds_init {h : Heap} {A : Lists} {hd : Addr} (hA : Holds h A) (hf : Fresh A hd) :
    Holds (headInit h hd) (upd A hd []) := by
  obtain ⟨h1, h2⟩ := ring_init h hd
  refine holds_upd [hd] hA h1 (by simp) ?_ ?_
  · intro k ys hk hAk a ha hm
    simp at hm; subst hm
    exact hf k ys hAk ha
  · intro a ha; exact h2 a (by simpa using ha)

theorem holds_add {h : Heap} {A : Lists} {hd x : Addr} {xs : List Addr} (hA : Holds h A)
    (hx : A hd = some xs) (hf : Fresh A x) : Holds (DList.add h x hd) (upd A hd (x :: xs)) := by
  obtain ⟨h1, h2⟩ := ring_add (hA.1 hd xs hx) (hf hd xs hx)
  refine holds_upd (x :: hd :: xs) hA h1 (by grind) ?_ h2
  intro k ys hk hAk a ha hm
  rcases List.mem_cons.1 hm with e | hm
  · subst e; exact hf k ys hAk ha
  · exact hA.2 k hd ys xs hk hAk hx a ha hm

theorem holds_addTail {h : Heap} {A : Lists} {hd x : Addr} {xs : List Addr} (hA : Holds h A)
    (hx : A hd = some xs) (hf : Fresh A x) : Holds (DList.addTail h x hd) (upd A hd (xs ++ [x])) := by
  obtain ⟨h1, h2⟩ := ring_addTail (hA.1 hd xs hx) (hf hd xs hx)
  refine holds_upd (x :: hd :: xs) hA h1 (by grind) ?_ h2
  intro k ys hk hAk a ha hm
  rcases List.mem_cons.1 hm with e | hm
  · subst e; exact hf k ys hAk ha
  · exact hA.2 k hd ys xs hk hAk hx a ha hm

theorem holds_delEntry {h : Heap} {A : Lists} {hd x : Addr} {l1 l2 : List Addr} (hA : Holds h A)
    (hx : A hd = some (l1 ++ x :: l2)) :
    Holds (delEntry h x) (upd A hd (l1 ++ l2)) ∧ Fresh (upd A hd (l1 ++ l2)) x := by
  have hr := hA.1 hd _ hx
  obtain ⟨h1, h2⟩ := ring_del hr
  constructor
  · refine holds_upd (hd :: (l1 ++ x :: l2)) hA h1 (by grind) ?_ h2
    intro k ys hk hAk a ha
    exact hA.2 k hd ys _ hk hAk hx a ha
  · intro k ys hk hm
    by_cases e : k = hd
    · subst e
      rw [upd_same] at hk; cases hk
      have := hr.1
      grind
    · rw [upd_other e] at hk
      exact hA.2 k hd ys _ e hk hx x hm (by simp)

/-- Changing the fields of a node in no list. -/
theorem holds_fresh {h h' : Heap} {A : Lists} {x : Addr} (hA : Holds h A) (hf : Fresh A x)
    (hfr : ∀ a, a ≠ x → h'.next a = h.next a ∧ h'.prev a = h.prev a) : Holds h' A := by
  refine ⟨fun hd xs hx => ring_frame (hA.1 hd xs hx) ?_, hA.2⟩
  intro a ha
  apply hfr
  intro e; subst e
  exact hf hd xs hx ha

theorem poison_frame (h : Heap) (x : Addr) : ∀ a, a ≠ x →
    (headPoison h x).next a = h.next a ∧ (headPoison h x).prev a = h.prev a := by
  intro a ha; simp [headPoison, Heap.setNext, Heap.setPrev, ha]

theorem holds_del {h : Heap} {A : Lists} {hd x : Addr} {l1 l2 : List Addr} (hA : Holds h A)
    (hx : A hd = some (l1 ++ x :: l2)) : Holds (DList.del h x) (upd A hd (l1 ++ l2)) ∧
      (DList.del h x).next x = poison1 ∧ (DList.del h x).prev x = poison2 ∧
      ∀ a, a ∉ hd :: (l1 ++ x :: l2) → (DList.del h x).next a = h.next a ∧ (DList.del h x).prev a = h.prev a := by
  obtain ⟨h1, h2⟩ := holds_delEntry hA hx
  obtain ⟨_, h4⟩ := ring_del (hA.1 hd _ hx)
  refine ⟨holds_fresh h1 h2 (poison_frame _ x), ?_, ?_, ?_⟩
  · simp [DList.del, headPoison, Heap.setNext, Heap.setPrev]
  · simp [DList.del, headPoison, Heap.setNext, Heap.setPrev]
  · intro a ha
    have e : DList.del h x = headPoison (delEntry h x) x := rfl
    obtain ⟨e1, e2⟩ := poison_frame (delEntry h x) x a (by grind)
    rw [e, e1, e2]; exact h4 a ha

theorem holds_delInit {h : Heap} {A : Lists} {hd x : Addr} {l1 l2 : List Addr} (hA : Holds h A)
    (hx : A hd = some (l1 ++ x :: l2)) : Holds (DList.delInit h x) (upd A hd (l1 ++ l2)) ∧
      Ring (DList.delInit h x) x [] ∧
      ∀ a, a ∉ hd :: (l1 ++ x :: l2) → (DList.delInit h x).next a = h.next a ∧ (DList.delInit h x).prev a = h.prev a := by
  obtain ⟨h1, h2⟩ := holds_delEntry hA hx
  obtain ⟨_, h4⟩ := ring_del (hA.1 hd _ hx)
  obtain ⟨i1, i2⟩ := ring_init (delEntry h x) x
  refine ⟨holds_fresh h1 h2 i2, i1, ?_⟩
  intro a ha
  have e : DList.delInit h x = headInit (delEntry h x) x := rfl
  obtain ⟨e1, e2⟩ := i2 a (by grind)
  rw [e, e1, e2]; exact h4 a ha

theorem holds_move {h : Heap} {A : Lists} {hd hd' x : Addr} {l1 l2 ys : List Addr} (hA : Holds h A)
    (hx : A hd = some (l1 ++ x :: l2)) (hy : upd A hd (l1 ++ l2) hd' = some ys) :
    Holds (DList.move h x hd') (upd (upd A hd (l1 ++ l2)) hd' (x :: ys)) ∧
    Holds (DList.moveTail h x hd') (upd (upd A hd (l1 ++ l2)) hd' (ys ++ [x])) ∧
    ∀ a, a ∉ hd :: (l1 ++ x :: l2) ++ hd' :: ys →
      ((DList.move h x hd').next a = h.next a ∧ (DList.move h x hd').prev a = h.prev a) ∧
      ((DList.moveTail h x hd').next a = h.next a ∧ (DList.moveTail h x hd').prev a = h.prev a) := by
  obtain ⟨h1, h2⟩ := holds_delEntry hA hx
  obtain ⟨_, h4⟩ := ring_del (hA.1 hd _ hx)
  obtain ⟨_, a2⟩ := ring_add (h1.1 hd' ys hy) (h2 hd' ys hy)
  obtain ⟨_, t2⟩ := ring_addTail (h1.1 hd' ys hy) (h2 hd' ys hy)
  refine ⟨holds_add h1 hy h2, holds_addTail h1 hy h2, ?_⟩
  intro a ha
  have n1 : a ∉ x :: hd' :: ys := by grind
  have n2 : a ∉ hd :: (l1 ++ x :: l2) := by grind
  obtain ⟨e1, e2⟩ := a2 a n1
  obtain ⟨f1, f2⟩ := t2 a n1
  obtain ⟨g1, g2⟩ := h4 a n2
  exact ⟨⟨e1.trans g1, e2.trans g2⟩, ⟨f1.trans g1, f2.trans g2⟩⟩

theorem holds_splice {h : Heap} {A : Lists} {s d : Addr} {xs ys : List Addr} (hA : Holds h A)
    (hne : s ≠ d) (hs : A s = some xs) (hd : A d = some ys) :
    Holds (spliceTailInit h s d) (upd (upd A d (ys ++ xs)) s []) := by
  obtain ⟨h1, h2, h3⟩ := ring_splice (hA.1 s xs hs) (hA.1 d ys hd) (hA.2 s d xs ys hne hs hd)
  have other : ∀ k zs, k ≠ s → k ≠ d → A k = some zs → ∀ a ∈ k :: zs, a ∉ s :: xs ++ d :: ys := by
    intro k zs hks hkd hk a ha hm
    rcases List.mem_append.1 hm with hm | hm
    · exact hA.2 k s zs xs hks hk hs a ha hm
    · exact hA.2 k d zs ys hkd hk hd a ha hm
  refine ⟨?_, ?_⟩
  · intro k zs hk
    by_cases e : k = s
    · subst e; rw [upd_same] at hk; cases hk; exact h2
    · rw [upd_other e] at hk
      by_cases e' : k = d
      · subst e'; rw [upd_same] at hk; cases hk; exact h1
      · rw [upd_other e'] at hk
        exact ring_frame (hA.1 k zs hk) (fun a ha => h3 a (other k zs e e' hk a ha))
  · have hsplit : ∀ k zs, upd (upd A d (ys ++ xs)) s [] k = some zs →
        (k = s ∧ zs = []) ∨ (k ≠ s ∧ k = d ∧ zs = ys ++ xs) ∨ (k ≠ s ∧ k ≠ d ∧ A k = some zs) := by
      intro k zs hk
      by_cases e : k = s
      · subst e; rw [upd_same] at hk; cases hk; exact Or.inl ⟨rfl, rfl⟩
      · rw [upd_other e] at hk
        by_cases e' : k = d
        · subst e'; rw [upd_same] at hk; cases hk; exact Or.inr (Or.inl ⟨e, rfl, rfl⟩)
        · rw [upd_other e'] at hk; exact Or.inr (Or.inr ⟨e, e', hk⟩)
    have snd := (hA.1 s xs hs).1
    have dis := hA.2 s d xs ys hne hs hd
    intro k k' us vs hkk hu hv a ha hm
    rcases hsplit k us hu with ⟨e1, e2⟩ | ⟨_, e1, e2⟩ | ⟨e1, e2, e3⟩ <;>
      rcases hsplit k' vs hv with ⟨g1, g2⟩ | ⟨_, g1, g2⟩ | ⟨g1, g2, g3⟩
    · exact hkk (e1.trans g1.symm)
    · subst e1 e2 g1 g2; grind
    · subst e1 e2; have := other k' vs g1 g2 g3 a hm; grind
    · subst e1 e2 g1 g2; grind
    · exact hkk (e1.trans g1.symm)
    · subst e1 e2; have := other k' vs g1 g2 g3 a hm; grind
    · subst g1 g2; have := other k us e1 e2 e3 a ha; grind
    · subst g1 g2; have := other k us e1 e2 e3 a ha; grind
    · exact hA.2 k k' us vs hkk e3 g3 a ha hm

theorem empty_iff {h : Heap} {hd : Addr} {xs : List Addr} (hr : Ring h hd xs) :
    empty h hd = true ↔ xs = [] := by
  cases xs with
  | nil => simp [empty, hr.2.1]
  | cons x l =>
    have h1 := hr.1
    have : x ≠ hd := by grind
    simp [empty, hr.2.1.1, this]

theorem step_sound {h : Heap} {A A' : Lists} {op : Op} {ret : Option Addr} {nodes : List Addr}
    (hA : Holds h A) (hs : Step A op A' ret nodes) :
    Holds (exec h op).1 A' ∧ (exec h op).2 = ret ∧
    ∀ a, a ∉ nodes → (exec h op).1.next a = h.next a ∧ (exec h op).1.prev a = h.prev a := by
  cases hs with
  | init hf => exact ⟨holds_init hA hf, rfl, fun a ha => (ring_init h _).2 a (by simpa using ha)⟩
  | add hx hf => exact ⟨holds_add hA hx hf, rfl, (ring_add (hA.1 _ _ hx) (hf _ _ hx)).2⟩
  | addTail hx hf => exact ⟨holds_addTail hA hx hf, rfl, (ring_addTail (hA.1 _ _ hx) (hf _ _ hx)).2⟩
  | del hx => obtain ⟨h1, _, _, h2⟩ := holds_del hA hx; exact ⟨h1, rfl, h2⟩
  | delInit hx => obtain ⟨h1, _, h2⟩ := holds_delInit hA hx; exact ⟨h1, rfl, h2⟩
  | move hx hy => obtain ⟨h1, _, h2⟩ := holds_move hA hx hy; exact ⟨h1, rfl, fun a ha => (h2 a ha).1⟩
  | moveTail hx hy => obtain ⟨_, h1, h2⟩ := holds_move hA hx hy; exact ⟨h1, rfl, fun a ha => (h2 a ha).2⟩
  | splice hne hx hy =>
    exact ⟨holds_splice hA hne hx hy, rfl, (ring_splice (hA.1 _ _ hx) (hA.1 _ _ hy) (hA.2 _ _ _ _ hne hx hy)).2.2⟩
  | @removeHead hd x xs hx =>
    have hr := hA.1 _ _ hx
    have hemp : empty h hd = false := by
      have := empty_iff hr; simp at this; simpa using this
    have hn : h.next hd = x := hr.2.1.1
    obtain ⟨h1, _, _, h2⟩ := holds_del (l1 := []) hA hx
    simp only [exec, DList.removeHead, hemp, hn]
    exact ⟨h1, rfl, h2⟩
  | @removeHeadInit hd x xs hx =>
    have hr := hA.1 _ _ hx
    have hemp : empty h hd = false := by
      have := empty_iff hr; simp at this; simpa using this
    have hn : h.next hd = x := hr.2.1.1
    obtain ⟨h1, _, h2⟩ := holds_delInit (l1 := []) hA hx
    simp only [exec, DList.removeHeadInit, hemp, hn]
    exact ⟨h1, rfl, h2⟩
  | @removeTail hd x xs hx =>
    have hr := hA.1 _ _ hx
    have hemp : empty h hd = false := by
      have := empty_iff hr; simp at this; simpa using this
    have hn : h.prev hd = x := by
      have := (chain_prev hr.2).1; rw [this]; simp [List.getLast_cons]
    obtain ⟨h1, _, _, h2⟩ := holds_del (l2 := []) hA hx
    simp only [exec, DList.removeTail, hemp, hn]
    exact ⟨by simpa using h1, rfl, h2⟩
  | @removeTailInit hd x xs hx =>
    have hr := hA.1 _ _ hx
    have hemp : empty h hd = false := by
      have := empty_iff hr; simp at this; simpa using this
    have hn : h.prev hd = x := by
      have := (chain_prev hr.2).1; rw [this]; simp [List.getLast_cons]
    obtain ⟨h1, _, h2⟩ := holds_delInit (l2 := []) hA hx
    simp only [exec, DList.removeTailInit, hemp, hn]
    exact ⟨by simpa using h1, rfl, h2⟩
  | removeHeadEmpty hx =>
    have := (empty_iff (hA.1 _ _ hx)).2 rfl
    simp only [exec, DList.removeHead, this]; exact ⟨hA, rfl, fun a _ => ⟨rfl, rfl⟩⟩
  | removeHeadInitEmpty hx =>
    have := (empty_iff (hA.1 _ _ hx)).2 rfl
    simp only [exec, DList.removeHeadInit, this]; exact ⟨hA, rfl, fun a _ => ⟨rfl, rfl⟩⟩
  | removeTailEmpty hx =>
    have := (empty_iff (hA.1 _ _ hx)).2 rfl
    simp only [exec, DList.removeTail, this]; exact ⟨hA, rfl, fun a _ => ⟨rfl, rfl⟩⟩
  | removeTailInitEmpty hx =>
    have := (empty_iff (hA.1 _ _ hx)).2 rfl
    simp only [exec, DList.removeTailInit, this]; exact ⟨hA, rfl, fun a _ => ⟨rfl, rfl⟩⟩

theorem run_holds {h0 h : Heap} {A : Lists} (hr : Run h0 h A) : Holds h A := by
  induction hr with
  | start => exact ⟨by simp, by simp⟩
  | step _ hs ih => exact (step_sound ih hs).1

/-! ## C08 -/

/-- C08. From any memory contents, after any history of calls that were legal when issued, memory
    holds exactly the expected lists as disjoint well-formed rings; and each further legal call
    returns what it should and changes no field of a node outside the lists it concerns. -/
theorem C08_rings {h0 h : Heap} {A : Lists} (hr : Run h0 h A) :
    Holds h A ∧ ∀ op A' ret nodes, Step A op A' ret nodes →
      Holds (exec h op).1 A' ∧ (exec h op).2 = ret ∧
      ∀ a, a ∉ nodes → (exec h op).1.next a = h.next a ∧ (exec h op).1.prev a = h.prev a :=
  ⟨run_holds hr, fun _ _ _ _ hs => step_sound (run_holds hr) hs⟩

theorem forEach_chain {h : Heap} {hd a : Addr} {l : List Addr} (hc : Chain h a l hd)
    (hne : hd ∉ l) : ForEach h hd (h.next a) l := by
  induction l generalizing a with
  | nil => rw [hc.1]; exact .stop
  | cons x l ih =>
    rw [hc.1.1]
    exact .go (by grind) (ih hc.2 (by grind))

theorem forEachPrev_chain {h : Heap} {hd : Addr} : ∀ (m : List Addr) (a : Addr),
    Chain h hd m.reverse a → hd ∉ m → ForEachPrev h hd (h.prev a) m
  | [], a, hc, _ => by rw [hc.2]; exact .stop
  | x :: m, a, hc, hne => by
    rw [List.reverse_cons, chain_append] at hc
    rw [hc.2.2]
    exact .go (by grind) (forEachPrev_chain m x hc.1 (by grind))

/-- C08 (queries). On a well-formed list the emptiness and singleton tests, first/last and
    next/previous accessors give the expected answers, and both iteration macros visit exactly the
    entries, in order resp. in reverse order. -/
theorem C08_queries {h : Heap} {hd : Addr} {xs : List Addr} (hr : Ring h hd xs) :
    (empty h hd = true ↔ xs = []) ∧ (isSingular h hd = true ↔ xs.length = 1) ∧
    headOf h hd = xs.head? ∧ tailOf h hd = xs.getLast? ∧
    (∀ l1 x l2, xs = l1 ++ x :: l2 → nextOf h hd x = l2.head? ∧ prevOf h hd x = l1.getLast?) ∧
    ForEach h hd (h.next hd) xs ∧ ForEachPrev h hd (h.prev hd) xs.reverse := by
  have hemp := empty_iff hr
  have hnd := hr.1
  obtain ⟨p1, p2⟩ := chain_prev hr.2
  have hne : hd ∉ xs := (List.nodup_cons.1 hnd).1
  refine ⟨hemp, ?_, ?_, ?_, ?_, forEach_chain hr.2 hne, forEachPrev_chain _ _ (by simpa using hr.2) (by simpa using hne)⟩
  · cases xs with
    | nil => simp [isSingular, hemp.2 rfl]
    | cons x l =>
      have e : empty h hd = false := by simpa using hemp
      simp only [isSingular, e, p1, hr.2.1.1]
      cases l with
      | nil => simp
      | cons y l =>
        have hm : (y :: l).getLast (by simp) ∈ y :: l := List.getLast_mem _
        have : x ≠ (y :: l).getLast (by simp) := by grind
        simp [this]
  · cases xs with
    | nil => simp [headOf, hemp.2 rfl]
    | cons x l =>
      have e : empty h hd = false := by simpa using hemp
      simp [headOf, e, hr.2.1.1]
  · cases xs with
    | nil => simp [tailOf, hemp.2 rfl]
    | cons x l =>
      have e : empty h hd = false := by simpa using hemp
      simp [tailOf, e, p1, List.getLast?_eq_some_getLast]
  · intro l1 x l2 e
    subst e
    have hc := hr.2
    rw [chain_append] at hc
    obtain ⟨q1, _⟩ := chain_prev hc.1
    obtain ⟨n1, _⟩ := chain_next hc.2
    constructor
    · cases l2 with
      | nil => simp [nextOf, n1]
      | cons y l => have : y ≠ hd := by grind
                    simp [nextOf, n1, this]
    · cases l1 with
      | nil => simp [prevOf, q1]
      | cons y l =>
        have hm : (y :: l).getLast (by simp) ∈ y :: l := List.getLast_mem _
        have : (y :: l).getLast (by simp) ≠ hd := by grind
        simp [prevOf, q1, this, List.getLast?_eq_some_getLast]

/-- C08 (deleted nodes). A deleted node carries the poison values; one deleted with `_init` is an
    empty list again. -/
theorem C08_deleted {h0 h : Heap} {A : Lists} (hr : Run h0 h A) {hd x : Addr} {l1 l2 : List Addr}
    (hx : A hd = some (l1 ++ x :: l2)) :
    (DList.del h x).next x = poison1 ∧ (DList.del h x).prev x = poison2 ∧
    Ring (DList.delInit h x) x [] :=
  ⟨(holds_del (run_holds hr) hx).2.1, (holds_del (run_holds hr) hx).2.2.1,
    (holds_delInit (run_holds hr) hx).2.1⟩

/-! ## Non-vacuity -/

/-- Two lists at addresses 100 and 200, filled, one entry moved over, then spliced. -/
example : ∃ h A, Run ⟨fun _ => 0, fun _ => 0⟩ h A ∧ A 100 = some [3, 1, 2] ∧ A 200 = some [] := by
  have fr : ∀ (A : Lists) x, (∀ hd xs, A hd = some xs → x ∉ hd :: xs) → Fresh A x := fun _ _ h => h
  refine ⟨_, _, .step (.step (.step (.step (.step (.step .start
    (.init (hd := 100) ?_)) (.init (hd := 200) ?_)) (.add (x := 1) (hd := 200) (xs := []) rfl ?_))
    (.addTail (x := 2) (hd := 200) (xs := [1]) rfl ?_)) (.add (x := 3) (hd := 100) (xs := []) rfl ?_))
    (.splice (src := 200) (dst := 100) (xs := [1, 2]) (ys := [3]) (by decide) rfl rfl), rfl, rfl⟩
  all_goals
    intro hd xs h hm
    simp only [upd] at h
    repeat' split at h
    all_goals grind

end Verif.DList
