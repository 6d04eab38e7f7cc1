import Verif.MpqGo

/-! Call numbers are unique; positions in the log. -/

namespace Verif.Mpq

/-- For the statements and proofs about the models imported; models no code of its own. -/
def evCalled (n : Nat) : Ev → Nat
  | .called _ _ n' _ _ => b2n (n' == n)
  | _ => 0

/-- For the statements and proofs about the models imported; models no code of its own. -/
structure Un (s : St) : Prop where
  one : ∀ n, tot (evCalled n) s.log ≤ 1
  fresh : ∀ n, s.next ≤ n → tot (evCalled n) s.log = 0

theorem tot_app' {α : Type} (w : α → Nat) (a b : List α) : tot w (a ++ b) = tot w a + tot w b := by simp [tot]

theorem Un_quiet {s s' : St} (hu : Un s) {es : List Ev} (hn : s'.next = s.next) (hl : s'.log = s.log ++ es) (he : ∀ n, tot (evCalled n) es = 0) : Un s' := by
  constructor
  · intro n; rw [hl, tot_app', he]; exact hu.one n
  · intro n h; rw [hl, tot_app', he]; exact hu.fresh n (hn ▸ h)

theorem Un_call {s s' : St} (hu : Un s) {t q : Nat} {sy : Bool} {d : Option Nat} {es : List Ev} (hn : s'.next = s.next + 1)
    (hl : s'.log = s.log ++ .called t q s.next sy d :: es) (he : ∀ n, tot (evCalled n) es = 0) : Un s' := by
  have key : ∀ n, tot (evCalled n) s'.log = tot (evCalled n) s.log + b2n (s.next == n) := by
    intro n; rw [hl, tot_app', tot_cons, he]; rfl
  constructor
  · intro n; rw [key]
    by_cases h : s.next = n
    · subst h; rw [hu.fresh _ (Nat.le_refl _)]; simp [b2n]
    · simp [b2n, h]; exact hu.one n
  · intro n h
    rw [key, hu.fresh n (by omega)]
    have : s.next ≠ n := by omega
    simp [b2n, this]

theorem Un_tr {s s' : St} (hu : Un s) (h : Tr s s') : Un s' := by
  cases h with
  | skip => exact hu
  | spawn => exact ⟨hu.one, hu.fresh⟩
  | create m nb hm => exact ⟨hu.one, hu.fresh⟩
  | startErr t qi th sy dn rc ht hrc =>
    exact Un_call hu (t := t) (q := qi) (sy := sy) (d := dn) (es := [.result t qi s.next sy rc]) rfl (by simp) (by intro n; simp [tot_cons, tot_nil, evCalled])
  | startInl t qi th ht ho hthis ha =>
    exact Un_call hu (t := t) (q := qi) (sy := true) (d := none) (es := [.inlined qi s.next]) rfl (by simp) (by intro n; simp [tot_cons, tot_nil, evCalled])
  | startGot t qi th q fo op ht ho hq hi hn hc hnf hs hsd hself hop =>
    exact Un_call hu (t := t) (q := qi) (sy := fo.sync.isSome) (d := fo.done) (es := []) rfl (by simp [hn]) (by intro n; simp [tot_nil])
  | addOk t qi th q fo ht ho hq hgd => exact Un_quiet hu (es := [.queued qi fo.n fo.compl]) rfl rfl (by intro n; simp [tot_cons, tot_nil, evCalled])
  | addErr => exact ⟨hu.one, hu.fresh⟩
  | addSleep => exact ⟨hu.one, hu.fresh⟩
  | wake => exact ⟨hu.one, hu.fresh⟩
  | syncRet => exact ⟨hu.one, hu.fresh⟩
  | put t qi th q fo rc ht ho hq =>
    refine Un_quiet hu (es := if fo.compl then [] else [.result t qi fo.n fo.sync.isSome rc]) rfl ?_ ?_
    · simp only; split <;> simp
    · intro n; split <;> simp [tot_cons, tot_nil, evCalled]
  | inlRet t qi n rest th ht ho hl hthis =>
    exact Un_quiet hu (es := [.inlineRet qi n, .result t qi n true .ok]) rfl (by simp) (by intro n; simp [tot_cons, tot_nil, evCalled])
  | dgot => exact ⟨hu.one, hu.fresh⟩
  | dset => exact ⟨hu.one, hu.fresh⟩
  | dput => exact ⟨hu.one, hu.fresh⟩
  | own qi q q' th es hq ht ho hl hk hcc =>
    refine Un_quiet hu (es := es) rfl rfl ?_
    intro n
    rcases hcc with ⟨hp, _, _, hpe, rfl, rfl⟩ | ⟨fo', rest, m, hp, hbt, rfl, rfl⟩ | ⟨hp, hbt, rfl, rfl⟩ | ⟨fo', m, hp, rfl, rfl⟩ |
        ⟨fo', m, hp, _, rfl, rfl⟩ | ⟨fo', d, hp, hd, hf', rfl, rfl⟩ | ⟨fo', hp, rfl, rfl⟩ | ⟨hp, _, _, rfl, rfl⟩ | ⟨hp, _, rfl, rfl⟩ |
        ⟨hp, _, _, rfl, rfl⟩ | ⟨hp, _, _, rfl, rfl⟩ | ⟨hp, _, rfl, rfl⟩ <;> simp [tot_cons, tot_nil, evCalled]
  | doneQ => exact ⟨hu.one, hu.fresh⟩
  | fin qi q th fo thr' bad' hq ht ho hl hp hcc =>
    exact Un_quiet hu (es := [.finished qi fo.n fo.compl]) rfl rfl (by intro n; simp [tot_cons, tot_nil, evCalled])
  | sig => exact ⟨hu.one, hu.fresh⟩

theorem Un_reach : ∀ s, Reachable s → Un s :=
  reach_induction ⟨by simp [init, tot], by simp [init, tot]⟩ fun _ _ h ht => Un_tr h ht

/-! ### Counting -/

theorem tot_countP {α : Type} (p : α → Bool) (w : α → Nat) (h : ∀ a, w a = b2n (p a)) (l : List α) : tot w l = l.countP p := by
  induction l with
  | nil => rfl
  | cons a as ih =>
    rw [tot_cons, ih, h, List.countP_cons, b2n]; omega

/-- Two calls with the same number are the same event position. -/
theorem called_pos {log l1 l2 : List Ev} {t q n : Nat} {sy : Bool} {d : Option Nat} (hu : tot (evCalled n) log ≤ 1)
    (hl : log = l1 ++ .called t q n sy d :: l2) : ∀ t' q' sy' d', Ev.called t' q' n sy' d' ∉ l1 := by
  intro t' q' sy' d' hm
  have := tot_mem_le (evCalled n) hm
  rw [hl, tot_app', tot_cons] at hu
  simp [evCalled, b2n] at this hu
  omega

/-! ### Order -/

theorem filterMap_split {α β : Type} (f : α → Option β) : ∀ (l : List α) (b : β) (u v : List β), l.filterMap f = u ++ b :: v →
    ∃ l1 a l2, l = l1 ++ a :: l2 ∧ f a = some b ∧ l1.filterMap f = u ∧ l2.filterMap f = v := by
  intro l
  induction l with
  | nil => intro b u v h; simp at h
  | cons a as ih =>
    intro b u v h
    cases hf : f a with
    | none =>
      rw [List.filterMap_cons_none hf] at h
      obtain ⟨l1, x, l2, rfl, h1, h2, h3⟩ := ih b u v h
      exact ⟨a :: l1, x, l2, rfl, h1, by rw [List.filterMap_cons_none hf]; exact h2, h3⟩
    | some y =>
      rw [List.filterMap_cons_some hf] at h
      cases u with
      | nil =>
        simp at h
        obtain ⟨rfl, h⟩ := h
        exact ⟨[], a, as, rfl, hf, rfl, h⟩
      | cons z zs =>
        simp at h
        obtain ⟨rfl, h⟩ := h
        obtain ⟨l1, x, l2, rfl, h1, h2, h3⟩ := ih b zs v h
        exact ⟨a :: l1, x, l2, rfl, h1, by rw [List.filterMap_cons_some hf, h2], h3⟩

end Verif.Mpq
