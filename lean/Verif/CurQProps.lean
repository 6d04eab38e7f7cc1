import Verif.CurQ
/-! Properties C170 (a thread's own queue) and C171 (counters). -/
namespace Verif.CurQ

/-! ## C170 -/

inductive Reach : St → Prop
  | init : Reach St.init
  | step {s s' : St} {a : Act} : Reach s → step s a = some s' → Reach s'

/-- no loop is started by a function that a loop executes -/
def Act.plain (s : St) : Act → Prop
  | .loop t => (s.th t).frames = []
  | _ => True

inductive ReachP : St → Prop
  | init : ReachP St.init
  | step {s s' : St} {a : Act} : ReachP s → a.plain s → step s a = some s' → ReachP s'

theorem ReachP.reach {s : St} (h : ReachP s) : Reach s := by
  induction h with
  | init => exact .init
  | step _ _ hs ih => exact .step ih hs

/-- queue `q` exists and is not freed -/
def St.live (s : St) (q : Nat) : Prop := ∃ x, s.qs[q]? = some x ∧ x.freed = false

structure Inv (s : St) : Prop where
  cur : ∀ (t q : Nat), (s.th t).cur = some q → s.live q
  one : ∀ (t u q : Nat), (s.th t).cur = some q → (s.th u).cur = some q → t = u
  frames : ∀ (t q : Nat), q ∈ (s.th t).frames → (s.th t).cur = some q
  short : ∀ (t : Nat), (s.th t).frames.length ≤ 1
  owned : ∀ (q : Nat), s.live q → ∃ t, (s.th t).cur = some q
  gone : ∀ (t : Nat), (s.th t).gone = true → (s.th t).frames = []
  noUaf : s.uaf = false

theorem live_append {s : St} {q : Nat} (x : Q) (th : Nat → Th) (u : Bool) (h : s.live q) : (⟨s.qs ++ [x], th, u⟩ : St).live q := by
  obtain ⟨y, h1, h2⟩ := h
  have hl : q < s.qs.length := (List.getElem?_eq_some_iff.1 h1).1
  exact ⟨y, by simp only [List.getElem?_append_left hl]; exact h1, h2⟩

theorem live_new {s : St} (th : Nat → Th) (u : Bool) : (⟨s.qs ++ [⟨false, false⟩], th, u⟩ : St).live s.qs.length :=
  ⟨⟨false, false⟩, by simp, rfl⟩

theorem live_of_append {s : St} {q : Nat} {x : Q} {th : Nat → Th} {u : Bool} (h : (⟨s.qs ++ [x], th, u⟩ : St).live q) : s.live q ∨ q = s.qs.length := by
  obtain ⟨y, h1, h2⟩ := h
  by_cases hl : q < s.qs.length
  · simp only [List.getElem?_append_left hl] at h1; exact .inl ⟨y, h1, h2⟩
  · have h3 := (List.getElem?_eq_some_iff.1 h1).1
    simp at h3
    right; omega

theorem live_lt {s : St} {q : Nat} (h : s.live q) : q < s.qs.length := by
  obtain ⟨y, h1, -⟩ := h
  exact (List.getElem?_eq_some_iff.1 h1).1

theorem inv_reach {s : St} (h : ReachP s) : Inv s := by
  induction h with
  | init =>
    refine ⟨?_, ?_, ?_, ?_, ?_, ?_, rfl⟩
    · intro t q h; cases h
    · intro t u q h; cases h
    · intro t q h; cases h
    · intro t; exact Nat.zero_le _
    · intro q h; exact absurd (live_lt h) (by simp [St.init])
    · intro t _; rfl
  | @step s s' a _ hp hs ih =>
    obtain ⟨h1, h2, h3, h4, h5, h6, h7⟩ := ih
    cases a with
    | current t ok =>
      simp only [step] at hs
      split at hs
      · cases hs
      · rename_i hg
        split at hs
        · cases hs; exact ⟨h1, h2, h3, h4, h5, h6, h7⟩
        · rename_i hc
          split at hs
          · cases hs
            have hnone : ∀ u q, (s.th u).cur = some q → q ≠ s.qs.length := by
              intro u q hu e; have := live_lt (h1 u q hu); omega
            refine ⟨?_, ?_, ?_, ?_, ?_, ?_, h7⟩
            · intro u q hu
              by_cases e : u = t
              · simp only [upd, e, if_true, Option.some.injEq] at hu; subst hu; exact live_new _ _
              · simp only [upd, e, if_false] at hu; exact live_append _ _ _ (h1 u q hu)
            · intro u v q hu hv
              by_cases e : u = t <;> by_cases e' : v = t
              · rw [e, e']
              · simp only [upd, e, e', if_true, if_false, Option.some.injEq] at hu hv; exact absurd hu.symm (hnone v q hv)
              · simp only [upd, e, e', if_true, if_false, Option.some.injEq] at hu hv; exact absurd hv.symm (hnone u q hu)
              · simp only [upd, e, e', if_false] at hu hv; exact h2 u v q hu hv
            · intro u q hu
              by_cases e : u = t
              · subst e
                simp only [upd, if_true] at hu
                have := h3 u q hu; rw [hc] at this; cases this
              · simp only [upd, e, if_false] at hu ⊢; exact h3 u q hu
            · intro u; by_cases e : u = t
              · subst e; simp only [upd, if_true]; exact h4 u
              · simp only [upd, e, if_false]; exact h4 u
            · intro q hq
              rcases live_of_append hq with hq | hq
              · obtain ⟨u, hu⟩ := h5 q hq
                have e : u ≠ t := by intro e; rw [e, hc] at hu; cases hu
                exact ⟨u, by simp only [upd, e, if_false]; exact hu⟩
              · exact ⟨t, by simp [upd, hq]⟩
            · intro u; by_cases e : u = t
              · subst e; simp only [upd, if_true]; exact h6 u
              · simp only [upd, e, if_false]; exact h6 u
          · cases hs; exact ⟨h1, h2, h3, h4, h5, h6, h7⟩
    | thread t =>
      simp only [step] at hs
      split at hs
      · cases hs
      · rename_i hg
        cases hs
        have hg1 : (s.th t).cur = none := Classical.byContradiction fun h => hg (.inr (.inl h))
        have hg2 : (s.th t).gone = false := by
          cases h : (s.th t).gone with
          | false => rfl
          | true => exact absurd (.inl h) hg
        have hnone : ∀ u q, (s.th u).cur = some q → q ≠ s.qs.length := by
          intro u q hu e; have := live_lt (h1 u q hu); omega
        refine ⟨?_, ?_, ?_, ?_, ?_, ?_, h7⟩
        · intro u q hu
          by_cases e : u = t
          · simp only [upd, e, if_true, Option.some.injEq] at hu; subst hu; exact live_new _ _
          · simp only [upd, e, if_false] at hu; exact live_append _ _ _ (h1 u q hu)
        · intro u v q hu hv
          by_cases e : u = t <;> by_cases e' : v = t
          · rw [e, e']
          · simp only [upd, e, e', if_true, if_false, Option.some.injEq] at hu hv; exact absurd hu.symm (hnone v q hv)
          · simp only [upd, e, e', if_true, if_false, Option.some.injEq] at hu hv; exact absurd hv.symm (hnone u q hu)
          · simp only [upd, e, e', if_false] at hu hv; exact h2 u v q hu hv
        · intro u q hu
          by_cases e : u = t
          · subst e
            simp only [upd, if_true, List.mem_singleton] at hu ⊢
            rw [hu]
          · simp only [upd, e, if_false] at hu ⊢; exact h3 u q hu
        · intro u; by_cases e : u = t
          · simp [upd, e]
          · simp only [upd, e, if_false]; exact h4 u
        · intro q hq
          rcases live_of_append hq with hq | hq
          · obtain ⟨u, hu⟩ := h5 q hq
            have e : u ≠ t := by intro e; rw [e, hg1] at hu; cases hu
            exact ⟨u, by simp only [upd, e, if_false]; exact hu⟩
          · exact ⟨t, by simp [upd, hq]⟩
        · intro u; by_cases e : u = t
          · subst e; simp [upd, hg2]
          · simp only [upd, e, if_false]; exact h6 u
    | loop t =>
      simp only [step] at hs
      simp only [Act.plain] at hp
      split at hs
      · cases hs
      · rename_i hg
        split at hs
        · cases hs; exact ⟨h1, h2, h3, h4, h5, h6, h7⟩
        · rename_i q hc
          cases hs
          have hcur : ∀ u, (upd s.th t { s.th t with frames := q :: (s.th t).frames } u).cur = (s.th u).cur := by
            intro u; by_cases e : u = t <;> simp [upd, e]
          refine ⟨?_, ?_, ?_, ?_, ?_, ?_, h7⟩
          · intro u q' hu; simp only [hcur] at hu; exact h1 u q' hu
          · intro u v q' hu hv; simp only [hcur] at hu hv; exact h2 u v q' hu hv
          · intro u q' hu
            simp only [hcur]
            by_cases e : u = t
            · subst e
              simp only [upd, if_true, hp, List.mem_singleton] at hu
              rw [hu]; exact hc
            · simp only [upd, e, if_false] at hu; exact h3 u q' hu
          · intro u; by_cases e : u = t
            · simp [upd, e, hp]
            · simp only [upd, e, if_false]; exact h4 u
          · intro q' hq'
            obtain ⟨u, hu⟩ := h5 q' hq'
            exact ⟨u, by simp only [hcur]; exact hu⟩
          · intro u; by_cases e : u = t
            · subst e; simp only [upd, if_true]; intro h; exact absurd h hg
            · simp only [upd, e, if_false]; exact h6 u
    | turn t =>
      simp only [step] at hs
      split at hs
      · cases hs
      · rename_i q fs hf
        have hcur := h3 t q (by rw [hf]; simp)
        obtain ⟨x, hx1, hx2⟩ := h1 t q hcur
        simp only [hx1, hx2, Bool.false_eq_true, if_false] at hs
        split at hs
        · cases hs
          have hfs : fs = [] := by
            have := h4 t
            rw [hf] at this
            simp only [List.length_cons] at this
            exact List.length_eq_zero_iff.1 (by omega)
          have hlive : ∀ q', q' ≠ q → s.live q' → (⟨s.qs.set q { x with freed := true }, upd s.th t { s.th t with cur := none, frames := fs }, s.uaf⟩ : St).live q' := by
            intro q' hne ⟨y, y1, y2⟩
            exact ⟨y, by simp only; rw [List.getElem?_set_ne (Ne.symm hne)]; exact y1, y2⟩
          refine ⟨?_, ?_, ?_, ?_, ?_, ?_, h7⟩
          · intro u q' hu
            by_cases e : u = t
            · simp [upd, e] at hu
            · simp only [upd, e, if_false] at hu
              refine hlive q' ?_ (h1 u q' hu)
              intro e'; subst e'; exact e (h2 u t q' hu hcur)
          · intro u v q' hu hv
            by_cases e : u = t
            · simp [upd, e] at hu
            · by_cases e' : v = t
              · simp [upd, e'] at hv
              · simp only [upd, e, e', if_false] at hu hv; exact h2 u v q' hu hv
          · intro u q' hu
            by_cases e : u = t
            · simp [upd, e, hfs] at hu
            · simp only [upd, e, if_false] at hu ⊢; exact h3 u q' hu
          · intro u; by_cases e : u = t
            · simp [upd, e, hfs]
            · simp only [upd, e, if_false]; exact h4 u
          · intro q' ⟨y, y1, y2⟩
            have hne : q' ≠ q := by
              intro e; subst e
              simp only at y1
              rw [List.getElem?_set_self (List.getElem?_eq_some_iff.1 hx1).1] at y1
              cases y1; cases y2
            simp only [List.getElem?_set_ne (Ne.symm hne)] at y1
            obtain ⟨u, hu⟩ := h5 q' ⟨y, y1, y2⟩
            have e : u ≠ t := by intro e; rw [e, hcur] at hu; cases hu; exact hne rfl
            exact ⟨u, by simp only [upd, e, if_false]; exact hu⟩
          · intro u; by_cases e : u = t
            · intro _; simp [upd, e, hfs]
            · simp only [upd, e, if_false]; exact h6 u
        · cases hs; exact ⟨h1, h2, h3, h4, h5, h6, h7⟩
    | destroy q =>
      simp only [step] at hs
      split at hs
      · cases hs
      · rename_i x hx
        split at hs
        · cases hs; exact ⟨h1, h2, h3, h4, h5, h6, h7⟩
        · rename_i hnf
          cases hs
          have hlive : ∀ q', (⟨s.qs.set q { x with term := true }, s.th, s.uaf⟩ : St).live q' ↔ s.live q' := by
            intro q'
            by_cases e : q' = q
            · subst e
              constructor
              · intro _; exact ⟨x, hx, by simpa using hnf⟩
              · intro _; exact ⟨{ x with term := true }, by simp only; rw [List.getElem?_set_self (List.getElem?_eq_some_iff.1 hx).1], by simpa using hnf⟩
            · simp only [St.live, List.getElem?_set_ne (Ne.symm e)]
          exact ⟨fun t q' h => (hlive q').2 (h1 t q' h), h2, h3, h4, fun q' h => h5 q' ((hlive q').1 h), h6, h7⟩
    | exit t =>
      simp only [step] at hs
      split at hs <;> cases hs
      rename_i hc
      have hcur : ∀ u, (upd s.th t { s.th t with gone := true } u).cur = (s.th u).cur ∧ (upd s.th t { s.th t with gone := true } u).frames = (s.th u).frames := by
        intro u; by_cases e : u = t <;> simp [upd, e]
      refine ⟨?_, ?_, ?_, ?_, ?_, ?_, h7⟩
      · intro u q' hu; simp only [(hcur u).1] at hu; exact h1 u q' hu
      · intro u v q' hu hv; simp only [(hcur u).1] at hu; simp only [(hcur v).1] at hv; exact h2 u v q' hu hv
      · intro u q' hu; simp only [(hcur u).1, (hcur u).2] at hu ⊢; exact h3 u q' hu
      · intro u; simp only [(hcur u).2]; exact h4 u
      · intro q' hq'; obtain ⟨u, hu⟩ := h5 q' hq'; exact ⟨u, by simp only [(hcur u).1]; exact hu⟩
      · intro u hu
        by_cases e : u = t
        · subst e; simp only [(hcur u).2]; exact hc.1
        · simp only [(hcur u).2]
          simp only [upd, e, if_false] at hu
          exact h6 u hu

/-- C170 (partial). As long as no function executed by a loop starts a loop itself: a loop never touches a freed queue; the queue a thread is told is its own
    exists, belongs to no other thread, and every existing queue belongs to a thread.
    Missing: nested loops (`C170_nested`), threads that end without having run the loop (`C170_orphan`). -/
theorem C170_partial {s : St} (h : ReachP s) :
    s.uaf = false ∧ (∀ t q, (s.th t).cur = some q → s.live q) ∧ (∀ t u q, (s.th t).cur = some q → (s.th u).cur = some q → t = u) ∧
      ∀ q, s.live q → ∃ t, (s.th t).cur = some q :=
  ⟨(inv_reach h).noUaf, (inv_reach h).cur, (inv_reach h).one, (inv_reach h).owned⟩

/-- C170 (the handle stays). Until its loop has returned, a thread is told the same queue by every call; the loop returns only after the queue's end was
    asked for, and the queue is freed then. -/
theorem C170_stable (s s' : St) (a : Act) (t q : Nat) (hs : step s a = some s') (hc : (s.th t).cur = some q) :
    (s'.th t).cur = some q ∨
      (a = .turn t ∧ (s'.th t).cur = none ∧ ∃ p x, (s.th t).frames.head? = some p ∧ s.qs[p]? = some x ∧ x.term = true ∧
        ∃ y, s'.qs[p]? = some y ∧ y.freed = true) := by
  cases a with
  | turn u =>
    simp only [step] at hs
    split at hs
    · cases hs
    · rename_i p fs hf
      split at hs
      · cases hs
      · rename_i x hx
        split at hs
        · cases hs; exact .inl hc
        · split at hs
          · rename_i ht
            cases hs
            by_cases e : t = u
            · subst e
              refine .inr ⟨rfl, by simp [upd], p, x, by rw [hf]; rfl, hx, ht, { x with freed := true }, ?_, rfl⟩
              simp only
              rw [List.getElem?_set_self (List.getElem?_eq_some_iff.1 hx).1]
            · left; simp only [upd, e, if_false]; exact hc
          · cases hs; exact .inl hc
  | current u ok =>
    left
    simp only [step] at hs
    split at hs
    · cases hs
    · split at hs
      · cases hs; exact hc
      · rename_i hcu
        split at hs <;> cases hs
        · have e : t ≠ u := by intro e; rw [e, hcu] at hc; cases hc
          simp only [upd, e, if_false]; exact hc
        · exact hc
  | thread u =>
    left
    simp only [step] at hs
    split at hs <;> cases hs
    rename_i hg
    have e : t ≠ u := by intro e; subst e; exact hg (.inr (.inl (by rw [hc]; simp)))
    simp only [upd, e, if_false]; exact hc
  | loop u =>
    left
    simp only [step] at hs
    split at hs
    · cases hs
    · split at hs <;> cases hs
      · exact hc
      · by_cases e : t = u
        · subst e; simp only [upd, if_true]; exact hc
        · simp only [upd, e, if_false]; exact hc
  | destroy p =>
    left
    simp only [step] at hs
    (repeat' split at hs) <;> cases hs <;> exact hc
  | exit u =>
    left
    simp only [step] at hs
    split at hs <;> cases hs
    by_cases e : t = u
    · subst e; simp only [upd, if_true]; exact hc
    · simp only [upd, e, if_false]; exact hc

/-- non-vacuity: a thread with its own queue, another one with a created queue; both end, and the first makes a new one -/
def sample : List Act := [.current 0 true, .thread 1, .loop 0, .turn 0, .destroy 0, .turn 0, .destroy 1, .turn 1, .current 0 true]

example : ((run .init sample).map fun s => (s.qs, (s.th 0).cur, (s.th 1).cur, s.uaf)) =
    some ([⟨true, true⟩, ⟨true, true⟩, ⟨false, false⟩], some 2, none, false) := by decide +kernel

/-- C170 is false of the code: a function executed by a queue calls aosl_mpq_loop; when the queue's end is asked for, the inner loop frees the queue and returns to the
    outer one, which uses it. -/
theorem C170_nested (t : Nat) : ∃ s, run .init [.thread t, .loop t, .destroy 0, .turn t, .turn t] = some s ∧ s.uaf = true := by
  refine ⟨⟨[⟨true, true⟩], upd (upd (upd (fun _ => ⟨none, [], false⟩) t ⟨some 0, [0], false⟩) t ⟨some 0, [0, 0], false⟩) t ⟨none, [0], false⟩, true⟩, ?_, rfl⟩
  simp [run, step, St.init, upd]

/-- an orphan: its thread has ended, and nobody loops on it -/
def Orphan (s : St) (q : Nat) : Prop := s.live q ∧ ∀ t, ((s.th t).cur = some q → (s.th t).gone = true) ∧ q ∉ (s.th t).frames

theorem orphan_step {s s' : St} {a : Act} {q : Nat} (h : Orphan s q) (hs : step s a = some s') : Orphan s' q := by
  obtain ⟨⟨x, hx1, hx2⟩, h2⟩ := h
  have hlt : q < s.qs.length := (List.getElem?_eq_some_iff.1 hx1).1
  cases a with
  | current u ok =>
    simp only [step] at hs
    split at hs
    · cases hs
    · split at hs
      · cases hs; exact ⟨⟨x, hx1, hx2⟩, h2⟩
      · split at hs <;> cases hs
        · refine ⟨live_append _ _ _ ⟨x, hx1, hx2⟩, fun t => ?_⟩
          by_cases e : t = u
          · subst e
            refine ⟨fun h => ?_, by simp only [upd, if_true]; exact (h2 t).2⟩
            simp only [upd, if_true, Option.some.injEq] at h; omega
          · simp only [upd, e, if_false]; exact h2 t
        · exact ⟨⟨x, hx1, hx2⟩, h2⟩
  | thread u =>
    simp only [step] at hs
    split at hs <;> cases hs
    refine ⟨live_append _ _ _ ⟨x, hx1, hx2⟩, fun t => ?_⟩
    by_cases e : t = u
    · subst e
      refine ⟨fun h => ?_, ?_⟩
      · simp only [upd, if_true, Option.some.injEq] at h; omega
      · simp only [upd, if_true, List.mem_singleton]; omega
    · simp only [upd, e, if_false]; exact h2 t
  | loop u =>
    simp only [step] at hs
    split at hs
    · cases hs
    · rename_i hg
      split at hs
      · cases hs; exact ⟨⟨x, hx1, hx2⟩, h2⟩
      · rename_i p hc
        cases hs
        refine ⟨⟨x, hx1, hx2⟩, fun t => ?_⟩
        by_cases e : t = u
        · subst e
          have hne : p ≠ q := by intro e; subst e; exact hg ((h2 t).1 hc)
          refine ⟨fun h => ?_, ?_⟩
          · simp only [upd, if_true] at h ⊢; exact (h2 t).1 h
          · simp only [upd, if_true, List.mem_cons, not_or]; exact ⟨fun e => hne e.symm, (h2 t).2⟩
        · simp only [upd, e, if_false]; exact h2 t
  | turn u =>
    simp only [step] at hs
    split at hs
    · cases hs
    · rename_i p fs hf
      have hne : q ≠ p := by intro e; subst e; exact (h2 u).2 (by rw [hf]; simp)
      split at hs
      · cases hs
      · split at hs
        · cases hs; exact ⟨⟨x, hx1, hx2⟩, h2⟩
        · split at hs <;> cases hs
          · refine ⟨⟨x, by simp only; rw [List.getElem?_set_ne (Ne.symm hne)]; exact hx1, hx2⟩, fun t => ?_⟩
            by_cases e : t = u
            · subst e
              refine ⟨fun h => by simp [upd] at h, ?_⟩
              simp only [upd, if_true]
              intro hm; exact (h2 t).2 (by rw [hf]; simp [hm])
            · simp only [upd, e, if_false]; exact h2 t
          · exact ⟨⟨x, hx1, hx2⟩, h2⟩
  | destroy p =>
    simp only [step] at hs
    split at hs
    · cases hs
    · rename_i y hy
      split at hs
      · cases hs; exact ⟨⟨x, hx1, hx2⟩, h2⟩
      · rename_i hnf
        cases hs
        refine ⟨?_, h2⟩
        by_cases e : q = p
        · subst e; exact ⟨{ y with term := true }, by simp only; rw [List.getElem?_set_self hlt], by simpa using hnf⟩
        · exact ⟨x, by simp only; rw [List.getElem?_set_ne (Ne.symm e)]; exact hx1, hx2⟩
  | exit u =>
    simp only [step] at hs
    split at hs <;> cases hs
    refine ⟨⟨x, hx1, hx2⟩, fun t => ?_⟩
    by_cases e : t = u
    · subst e; simp only [upd, if_true]; exact ⟨fun _ => trivial, (h2 t).2⟩
    · simp only [upd, e, if_false]; exact h2 t

/-- C170 is false of the code: a thread that was given a queue (by aosl_mpq_current, or by making a timer) and ends without running the loop leaves it behind: whatever
    happens later, it is never freed, so that waiting for its end never returns. -/
theorem C170_orphan (t : Nat) : ∃ s, run .init [.current t true, .exit t] = some s ∧ ∀ l s', run s l = some s' → s'.live 0 := by
  refine ⟨⟨[⟨false, false⟩], upd (upd (fun _ => ⟨none, [], false⟩) t ⟨some 0, [], false⟩) t ⟨some 0, [], true⟩, false⟩, by simp [run, step, St.init, upd], ?_⟩
  have key : ∀ l s s', Orphan s 0 → run s l = some s' → Orphan s' 0 := by
    intro l
    induction l with
    | nil => intro s s' h hr; cases hr; exact h
    | cons a l ih =>
      intro s s' h hr
      simp only [run] at hr
      cases hs : step s a with
      | none => simp [hs] at hr
      | some s1 => simp only [hs, Option.bind_some] at hr; exact ih s1 s' (orphan_step h hs) hr
  intro l s' hr
  refine (key l _ s' ⟨⟨⟨false, false⟩, rfl, rfl⟩, fun u => ?_⟩ hr).1
  by_cases e : u = t <;> simp [upd, e]

/-- aosl_mpq_this_destroyed says yes exactly if the end of the running queue was asked for, or there is none. -/
theorem C170_this_destroyed (s : St) (t q : Nat) (x : Q) (hc : (s.th t).cur = some q) (hx : s.qs[q]? = some x) : thisDestroyed s t = x.term := by
  simp [thisDestroyed, hc, hx]

theorem C170_this_destroyed_none (s : St) (t : Nat) (hc : (s.th t).cur = none) : thisDestroyed s t = true := by
  simp [thisDestroyed, hc]

/-! ## C171 -/

namespace Spec

def funcs : List Ev → Nat
  | [] => 0
  | .batch n :: l => n + funcs l
  | .direct :: l => 1 + funcs l
  | _ :: l => funcs l

def timers : List Ev → Nat
  | [] => 0
  | .timers n :: l => n + timers l
  | _ :: l => timers l

def fds : List Ev → Nat
  | [] => 0
  | .wait n _ :: l => n + fds l
  | _ :: l => fds l

def kicks : List Ev → Nat
  | [] => 0
  | .wait _ true :: l => 1 + kicks l
  | _ :: l => kicks l

def directs : List Ev → Nat
  | [] => 0
  | .direct :: l => 1 + directs l
  | _ :: l => directs l

end Spec

/-- C171, exactly: after every history the counters are: the functions executed less the ones executed directly, the timers fired, and the descriptor
    events plus the wake-ups. -/
theorem C171_exact (l : List Ev) (c : Counters) :
    (counts c l).funcs + Spec.directs l = c.funcs + Spec.funcs l ∧ (counts c l).timers = c.timers + Spec.timers l ∧
      (counts c l).fds = c.fds + Spec.fds l + Spec.kicks l := by
  induction l generalizing c with
  | nil => simp [counts, Spec.funcs, Spec.timers, Spec.fds, Spec.kicks, Spec.directs]
  | cons e l ih =>
    obtain ⟨h1, h2, h3⟩ := ih (count c e)
    simp only [counts]
    cases e with
    | batch n => simp only [count, Spec.funcs, Spec.timers, Spec.fds, Spec.kicks, Spec.directs] at *; omega
    | timers n => simp only [count, Spec.funcs, Spec.timers, Spec.fds, Spec.kicks, Spec.directs] at *; omega
    | wait n k => cases k <;> simp only [count, Spec.funcs, Spec.timers, Spec.fds, Spec.kicks, Spec.directs, if_true, Bool.false_eq_true, if_false] at * <;> omega
    | direct => simp only [count, Spec.funcs, Spec.timers, Spec.fds, Spec.kicks, Spec.directs] at *; omega

/-- C171 (partial). Between batches, without wake-ups and synchronous calls on the queue itself, the counters are the numbers of functions executed, timers fired and
    descriptor events handled.
    Missing: these two cases, and a question from within a batch. -/
theorem C171_partial (l : List Ev) (hk : Spec.kicks l = 0) (hd : Spec.directs l = 0) :
    counts ⟨0, 0, 0⟩ l = ⟨Spec.funcs l, Spec.timers l, Spec.fds l⟩ := by
  obtain ⟨h1, h2, h3⟩ := C171_exact l ⟨0, 0, 0⟩
  cases h : counts ⟨0, 0, 0⟩ l with
  | mk f t d =>
    rw [h] at h1 h2 h3
    simp only at h1 h2 h3
    rw [hk] at h3; rw [hd] at h1
    have e1 : f = Spec.funcs l := by omega
    have e2 : t = Spec.timers l := by omega
    have e3 : d = Spec.fds l := by omega
    rw [e1, e2, e3]

example : Spec.kicks [.batch 3, .timers 1, .wait 2 false, .batch 1] = 0 ∧ counts ⟨0, 0, 0⟩ [.batch 3, .timers 1, .wait 2 false, .batch 1] = ⟨4, 1, 2⟩ := by decide

/-- C171 is false of the code: a queue without any descriptor counts every wake-up as a descriptor event. -/
theorem C171_kicks (n : Nat) : (counts ⟨0, 0, 0⟩ (List.replicate n (.wait 0 true))).fds = n ∧ Spec.fds (List.replicate n (.wait 0 true)) = 0 := by
  have h2 : ∀ n, Spec.fds (List.replicate n (.wait 0 true)) = 0 ∧ Spec.kicks (List.replicate n (.wait 0 true)) = n := by
    intro n
    induction n with
    | zero => exact ⟨rfl, rfl⟩
    | succ n ih => simp only [List.replicate_succ, Spec.fds, Spec.kicks]; omega
  have h3 := (C171_exact (List.replicate n (.wait 0 true)) ⟨0, 0, 0⟩).2.2
  exact ⟨by rw [h3, (h2 n).1, (h2 n).2]; simp, (h2 n).1⟩

/-- C171 is false of the code: asked by a function, the counter misses all functions of its batch executed before it. -/
theorem C171_lag (l : List Ev) (i : Nat) (hd : Spec.directs l = 0) : (askedInBatch l i).funcs + i = Spec.funcs (l ++ [.batch i]) := by
  have h1 := (C171_exact l ⟨0, 0, 0⟩).1
  have h2 : ∀ l, Spec.funcs (l ++ [.batch i]) = Spec.funcs l + i := by
    intro l
    induction l with
    | nil => simp [Spec.funcs]
    | cons e l ih => cases e <;> simp only [List.cons_append, Spec.funcs, ih] <;> omega
  rw [h2]
  simp only [askedInBatch] at *
  omega

end Verif.CurQ
