import Verif.MemApi
/-! # C111: aosl_calloc and aosl_strdup; C112: aosl_memdump_r stays in its buffer -/

namespace Verif.MemApi

theorem wrs_append {α : Type} (cs : List α) : ∀ (pre : Blk α) (old rest : Blk α), old.length = cs.length →
    wrs (pre ++ old ++ rest) pre.length cs = .ok (pre ++ cs.map some ++ rest) := by
  induction cs with
  | nil =>
    intro pre old rest h
    have : old = [] := List.length_eq_zero_iff.1 h
    subst this; simp [wrs]
  | cons c cs ih =>
    intro pre old rest h
    cases old with
    | nil => simp at h
    | cons o old =>
      have hlt : pre.length < (pre ++ (o :: old) ++ rest).length := by simp
      simp only [wrs, wr, if_pos hlt]
      have e : (pre ++ (o :: old) ++ rest).set pre.length (some c) = (pre ++ [some c]) ++ old ++ rest := by
        simp
      rw [e]
      have h2 := ih (pre ++ [some c]) old rest (by simpa using h)
      rw [List.length_append, List.length_singleton] at h2
      rw [h2]; simp

theorem wr_at {α : Type} (pre rest : Blk α) (o : Option α) (c : α) : wr (pre ++ o :: rest) pre.length c = .ok (pre ++ some c :: rest) := by
  have hlt : pre.length < (pre ++ o :: rest).length := by simp
  simp [wr]

/-! ## C111 -/

/-- **C111**, when the product fits into a `size_t`: the block has `nmemb * size` cells, all zero, or the process aborts. -/
theorem C111_calloc_partial (w avail nmemb size : Nat) (h : nmemb * size < 2 ^ w) :
    calloc w avail nmemb size = if nmemb * size ≤ avail then .ok (List.replicate (nmemb * size) (some 0)) else .abort := by
  simp only [calloc, Nat.mod_eq_of_lt h, malloc]
  by_cases ha : nmemb * size ≤ avail
  · have := wrs_append (List.replicate (nmemb * size) 0) [] (List.replicate (nmemb * size) none) [] (by simp)
    simpa [ha] using this
  · simp [ha]

/-- **C111** fails: for every word size there are requests for which a smaller block than asked for is given, however much memory there is. -/
theorem C111_calloc_overflow (w avail : Nat) (hw : 2 ≤ w) : ∃ nmemb size m, nmemb < 2 ^ w ∧ size < 2 ^ w ∧ calloc w avail nmemb size = .ok m ∧ m.length < nmemb * size := by
  refine ⟨2 ^ (w - 1), 2, [], Nat.pow_lt_pow_right (by omega) (by omega), ?_, ?_, ?_⟩
  · have : 2 ^ 1 < 2 ^ w := Nat.pow_lt_pow_right (by omega) (by omega)
    omega
  · have e : 2 ^ (w - 1) * 2 = 2 ^ w := by rw [← Nat.pow_succ]; congr 1; omega
    simp [calloc, e, malloc, wrs]
  · have : 0 < 2 ^ (w - 1) := Nat.pos_of_ne_zero (by simp)
    simp only [List.length_nil]; omega

/-- **C111**, strings: the copy has the same bytes and a NUL after them, in a block of exactly that size. -/
theorem C111_strdup (w avail : Nat) (s : List Nat) (h : s.length + 1 < 2 ^ w) :
    strdup w avail s = if s.length + 1 ≤ avail then .ok (s.map some ++ [some 0]) else .abort := by
  simp only [strdup, Nat.mod_eq_of_lt h, malloc]
  by_cases ha : s.length + 1 ≤ avail
  · have := wrs_append s [] (List.replicate s.length none) [none] (by simp)
    simp only [if_pos ha]
    rw [show List.replicate (s.length + 1) (none : Option Nat) = [] ++ List.replicate s.length none ++ [none] by
      rw [List.replicate_succ']; simp]
    simp only [List.length_nil] at this
    simp only [this]
    have := wr_at (s.map some) [] (none : Option Nat) 0
    simpa using this
  · simp [ha]

/-! ## C112 -/

theorem snprintf_fit (pre t : List Char) (tail : Blk Char) (h : t.length < tail.length) :
    ∃ rest, snprintf (pre.map some ++ tail) pre.length tail.length t = .ok ((pre ++ t).map some ++ some nul :: rest) ∧ rest.length + 1 = tail.length - t.length := by
  have hne : tail.length ≠ 0 := by omega
  have htake : t.take (tail.length - 1) = t := List.take_of_length_le (by omega)
  have := wrs_append (t ++ [nul]) (pre.map some) (tail.take (t.length + 1)) (tail.drop (t.length + 1)) (by simp; omega)
  rw [List.append_assoc, List.take_append_drop, List.length_map] at this
  refine ⟨tail.drop (t.length + 1), ?_, by simp; omega⟩
  rw [snprintf, if_neg hne, htake, this]; simp

theorem snprintf_cut (pre t : List Char) (tail : Blk Char) (h : tail.length ≤ t.length) (h1 : 1 ≤ tail.length) :
    ∃ tail', snprintf (pre.map some ++ tail) pre.length tail.length t = .ok (pre.map some ++ tail') ∧ tail'.length = tail.length := by
  have hne : tail.length ≠ 0 := by omega
  have := wrs_append (t.take (tail.length - 1) ++ [nul]) (pre.map some) tail [] (by simp; omega)
  rw [List.append_nil, List.length_map] at this
  refine ⟨(t.take (tail.length - 1) ++ [nul]).map some, ?_, by simp; omega⟩
  rw [snprintf, if_neg hne, this]; simp

/-- What the traversal leaves behind. -/
theorem walk_spec (es : List Entry) : ∀ (pre : List Char) (tail : Blk Char) (idx : Nat), Lines es → 1 ≤ tail.length →
    ∃ tail', walk ⟨pre.map some ++ tail, pre.length, tail.length, idx⟩ es =
        .ok ⟨(pre ++ (fitting tail.length es).flatten).map some ++ tail', pre.length + (fitting tail.length es).flatten.length,
          tail'.length, idx + (fitting tail.length es).length⟩ ∧
      tail'.length + (fitting tail.length es).flatten.length = tail.length ∧ 1 ≤ tail'.length ∧
      ((∃ t, some t ∈ es) → tail'.head? = some (some nul)) ∧ ((∀ t, some t ∉ es) → tail' = tail) := by
  induction es with
  | nil => intro pre tail idx _ h1; exact ⟨tail, by simp [walk, fitting], by simp [fitting], h1, by simp, fun _ => rfl⟩
  | cons e es ih =>
    intro pre tail idx hl h1
    have hl' : Lines es := fun t ht => hl t (List.mem_cons_of_mem _ ht)
    have hlen : ¬ tail.length < 1 := by omega
    cases e with
    | none =>
      obtain ⟨tail', g1, g2, g3, g4, g5⟩ := ih pre tail idx hl' h1
      refine ⟨tail', ?_, g2, g3, ?_, ?_⟩
      · simp only [walk, if_neg hlen, fitting]; exact g1
      · rintro ⟨t, ht⟩; exact g4 ⟨t, by simpa using ht⟩
      · intro h; exact g5 (fun t ht => h t (List.mem_cons_of_mem _ ht))
    | some t =>
      have htlen : t.length ≠ 0 := by
        obtain ⟨⟨b, hb⟩, -⟩ := hl t (by simp)
        rw [hb]; simp
      by_cases hf : t.length < tail.length
      · obtain ⟨rest, e1, e2⟩ := snprintf_fit pre t tail hf
        have hc : ¬ (t.length ≥ tail.length ∨ t.length = 0) := by omega
        obtain ⟨tail', g1, g2, g3, g4, g5⟩ := ih (pre ++ t) (some nul :: rest) (idx + 1) hl' (by simp)
        have e3 : (some nul :: rest).length = tail.length - t.length := by simp only [List.length_cons]; exact e2
        rw [e3] at g1 g2
        refine ⟨tail', ?_, ?_, g3, ?_, ?_⟩
        · simp only [walk, if_neg hlen, e1, if_neg hc, fitting, if_pos hf, List.flatten_cons, List.length_append, List.length_cons]
          simp only [List.length_append] at g1
          rw [g1]
          simp only [List.append_assoc, R.ok.injEq, Arg.mk.injEq, true_and]
          exact ⟨by omega, by omega⟩
        · simp only [fitting, if_pos hf, List.flatten_cons, List.length_append]; omega
        · intro _
          by_cases h : ∃ t, some t ∈ es
          · exact g4 h
          · rw [g5 (fun t ht => h ⟨t, ht⟩)]; rfl
        · intro h; exact absurd (by simp) (h t)
      · obtain ⟨tail', e1, e2⟩ := snprintf_cut pre t tail (by omega) h1
        have hc : t.length ≥ tail.length ∨ t.length = 0 := by omega
        cases tail' with
        | nil => simp at e2; omega
        | cons c tail' =>
          have e3 := wr_at (pre.map some) tail' c nul
          rw [List.length_map] at e3
          refine ⟨some nul :: tail', ?_, ?_, by simp, fun _ => rfl, ?_⟩
          · simp only [walk, if_neg hlen, e1, if_pos hc, e3, fitting, if_neg hf, List.flatten_nil, List.length_nil, List.append_nil, Nat.add_zero]
            simp only [List.length_cons] at e2 ⊢
            rw [e2]
          · simp only [fitting, if_neg hf, List.flatten_nil, List.length_nil, List.length_cons] at e2 ⊢; omega
          · intro h; exact absurd (by simp) (h t)

theorem fitting_ne {n : Nat} {es : List Entry} {t : List Char} (h : t ∈ fitting n es) : some t ∈ es := by
  induction es generalizing n with
  | nil => simp [fitting] at h
  | cons e es ih =>
    cases e with
    | none => simp only [fitting] at h; exact List.mem_cons_of_mem _ (ih h)
    | some u =>
      simp only [fitting] at h
      split at h
      · rcases List.mem_cons.1 h with e | h'
        · subst e; simp
        · exact List.mem_cons_of_mem _ (ih h')
      · cases h

/-- The lines together end in a comma and a newline, and have no NUL. -/
theorem flatten_ends (l : List (List Char)) (hne : l ≠ []) (h : ∀ t ∈ l, (∃ b, t = b ++ [',', '\n']) ∧ nul ∉ t) :
    (∃ b, l.flatten = b ++ [',', '\n']) ∧ nul ∉ l.flatten := by
  refine ⟨?_, ?_⟩
  · rcases List.eq_nil_or_concat l with e | ⟨l', t, e⟩
    · exact absurd e hne
    · subst e
      obtain ⟨⟨b, hb⟩, -⟩ := h t (by simp)
      exact ⟨l'.flatten ++ b, by simp [hb]⟩
  · intro hm
    obtain ⟨t, ht, hm⟩ := List.mem_flatten.1 hm
    exact (h t ht).2 hm

/-- **C112**, for buffers of at least two characters: every access is inside the buffer.  If a line has been printed, the buffer holds, as a C string, the lines that fit, without the last
comma and newline; if none fits, the empty string; and the counts are those of the entries and of the lines printed.
Missing: a buffer of one character (`C112_one`), and the text if there is no line at all (`C112_nothing`). -/
theorem C112_dump_partial (m : Blk Char) (es : List Entry) (hm : 2 ≤ m.length) (hl : Lines es) :
    ∃ m', memdump m es = .ok (m', es.length, (fitting m.length es).length) ∧ m'.length = m.length ∧
      (fitting m.length es ≠ [] → IsStr m' ((fitting m.length es).flatten.dropLast.dropLast)) ∧
      (fitting m.length es = [] → (∃ t, some t ∈ es) → IsStr m' []) := by
  obtain ⟨tail', g1, g2, g3, g4, g5⟩ := walk_spec es [] m 0 hl (by omega)
  simp only [List.map_nil, List.nil_append, List.length_nil, Nat.zero_add] at g1
  by_cases hf : fitting m.length es = []
  · rw [hf] at g1 g2
    simp only [List.flatten_nil, List.map_nil, List.nil_append, List.length_nil, Nat.add_zero] at g1 g2
    simp only [memdump, g1, finish, g2, Nat.lt_irrefl, if_false, hf, List.length_nil]
    cases tail' with
    | nil => simp at g3
    | cons a tl =>
      cases tl with
      | nil => simp only [List.length_cons, List.length_nil] at g2; omega
      | cons b tl =>
        have e := wr_at [a] tl b nul
        simp only [List.length_singleton, List.singleton_append] at e
        simp only [Nat.zero_add, e]
        refine ⟨_, rfl, by simpa using g2, fun h => absurd rfl h, fun _ ht => ?_⟩
        have := g4 ht
        simp only [List.head?_cons, Option.some.injEq] at this
        subst this
        exact ⟨some nul :: tl, rfl, by simp⟩
  · obtain ⟨⟨b, hb⟩, hn⟩ := flatten_ends _ hf (fun t ht => hl t (fitting_ne ht))
    generalize hF : (fitting m.length es).flatten = F at *
    subst hb
    simp only [List.length_append, List.length_cons, List.length_nil] at g2
    have hlt : tail'.length < m.length := by omega
    have hv : m.length - tail'.length - 1 - 1 = (b.map some).length := by simp only [List.length_map]; omega
    have e0 : (b ++ [',', '\n']).map some ++ tail' = b.map some ++ some ',' :: (some '\n' :: tail') := by simp
    have e1 : rd (b.map some ++ some ',' :: (some '\n' :: tail')) (b.map some).length = .ok (some ',') := by
      simp [rd]
    have e2 := wr_at (b.map some) (some '\n' :: tail') (some ',') nul
    have e3 := wr_at (b.map some ++ [some nul]) tail' (some '\n') nul
    rw [List.length_append, List.length_singleton, List.append_assoc, List.singleton_append] at e3
    simp only [memdump, g1, finish, if_pos hlt, hv, e0, e1, e2, if_true, e3]
    refine ⟨_, rfl, by simp; omega, fun _ => ⟨some nul :: tail', ?_, ?_⟩, fun h => absurd h hf⟩
    · have : (b ++ [',', '\n']).dropLast.dropLast = b := by
        rw [show b ++ [',', '\n'] = (b ++ [',']) ++ ['\n'] by simp, List.dropLast_concat, List.dropLast_concat]
      rw [this]; simp
    · have : (b ++ [',', '\n']).dropLast.dropLast = b := by
        rw [show b ++ [',', '\n'] = (b ++ [',']) ++ ['\n'] by simp, List.dropLast_concat, List.dropLast_concat]
      rw [this]
      intro h; exact hn (by simp [h])

/-- **C112** fails: with a buffer of one character there is always a write behind it. -/
theorem C112_one (c : Option Char) (es : List Entry) (hl : Lines es) : memdump [c] es = .oob := by
  obtain ⟨tail', g1, g2, g3, -, -⟩ := walk_spec es [] [c] 0 hl (by simp)
  simp only [List.map_nil, List.nil_append, List.length_nil, Nat.zero_add] at g1
  simp only [List.length_singleton] at g1 g2
  have hF : (fitting 1 es).flatten = [] := List.length_eq_zero_iff.1 (by omega)
  have ht : tail'.length = 1 := by omega
  simp only [memdump, List.length_singleton, g1, hF, List.map_nil, List.nil_append, finish, ht, Nat.lt_irrefl, if_false, wr, Nat.zero_add]

/-- **C112** fails: if there is nothing to print, the first character of the buffer is left as it was, so the buffer does not hold the empty string. -/
theorem C112_nothing (m : Blk Char) (es : List Entry) (hm : 2 ≤ m.length) (h : ∀ t, some t ∉ es) :
    ∃ m', memdump m es = .ok (m', es.length, 0) ∧ m'.head? = m.head? := by
  obtain ⟨tail', g1, g2, g3, -, g5⟩ := walk_spec es [] m 0 (fun t ht => absurd ht (h t)) (by omega)
  have hf : fitting m.length es = [] := by
    cases he : fitting m.length es with
    | nil => rfl
    | cons t l => exact absurd (fitting_ne (by rw [he]; simp)) (h t)
  rw [g5 h, hf] at g1
  simp only [List.map_nil, List.nil_append, List.length_nil, Nat.zero_add, List.flatten_nil] at g1
  simp only [memdump, g1, finish, Nat.lt_irrefl, if_false]
  match m, hm with
  | a :: b :: tl, _ =>
    have e := wr_at [a] tl b nul
    simp only [List.length_singleton, List.singleton_append] at e
    simp only [Nat.zero_add, e]
    exact ⟨_, rfl, rfl⟩

/-! ## Non-vacuity -/

def exLines : List Entry := [some "f:1,\n".toList, none, some "g:22,\n".toList, some "h:3,\n".toList]

example : Lines exLines := by
  intro t ht
  simp only [exLines, List.mem_cons, List.not_mem_nil, or_false, reduceCtorEq, false_or, Option.some.injEq] at ht
  rcases ht with e | e | e <;> subst e
  · exact ⟨⟨"f:1".toList, by decide +kernel⟩, by decide +kernel⟩
  · exact ⟨⟨"g:22".toList, by decide +kernel⟩, by decide +kernel⟩
  · exact ⟨⟨"h:3".toList, by decide +kernel⟩, by decide +kernel⟩

example : fitting 13 exLines = ["f:1,\n".toList, "g:22,\n".toList] := by decide +kernel

example : memdump (List.replicate 13 none) exLines = .ok ("f:1,\ng:22".toList.map some ++ List.replicate 4 (some nul), 4, 2) := by decide +kernel

example : calloc 8 1000 12 11 = .ok (List.replicate 132 (some 0)) ∧ calloc 8 1000 128 3 = .ok (List.replicate 128 (some 0)) := by decide +kernel

example : strdup 64 10 [97, 98] = .ok [some 97, some 98, some 0] := by decide +kernel

end Verif.MemApi
