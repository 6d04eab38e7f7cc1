import Verif.PoolInitProps

/-!
# C214: exactly when pool calls can block for ever

`C214_closed` : if some pools use each other in their init functions so that none of them uses no
other of them (a circle, of any length), one call by one thread is enough to block for ever.
`C214_dichotomy` : for finitely many pools that is the only case in which the `_partial` theorems do
not apply.
-/

namespace Verif.PoolInit

/-! ## The blocked chain -/

/-- Threads `0 .. k-1` each wait for the next one to be ready, and thread `k`, which is not, needs a
lock one of them holds. Models no code of its own. -/
structure Dead (s : St) (p k : Nat) : Prop where
  zero : ∃ x, s.threads[0]? = some x ∧ x.pos = .creating p 1
  wait : ∀ i, i < k → ∃ x q, s.threads[i]? = some x ∧ x.pos = .creating q (i + 1)
  fresh : ∀ i x, 0 < i → i ≤ k → s.threads[i]? = some x → x.ready = false
  last : ∃ x r l j, s.threads[k]? = some x ∧ x.pos = .out ∧ x.todo = r :: l ∧ s.owner r = some j ∧ j < k

theorem dead_frozen {g : Prog} {s s' : St} {a : Act} {p k : Nat} (hi : Ok g s) (hd : Dead s p k)
    (h : step g s a = some s') :
    (∀ i, i ≤ k → s'.threads[i]? = s.threads[i]?) ∧ (∀ q j, s.owner q = some j → j < k → s'.owner q = some j) := by
  obtain ⟨xk, r, l, j0, hxk, hok, htk, hrk, hj0⟩ := hd.last
  have hwait := hd.wait
  have hfresh := hd.fresh
  have hlen : k < s.threads.length := by rw [List.getElem?_eq_some_iff] at hxk; exact hxk.1
  -- what a moving thread within the chain would be
  have posW : ∀ t x, t < k → s.threads[t]? = some x → ∃ q, x.pos = .creating q (t + 1) := by
    intro t x ht hx
    obtain ⟨y, q, hy, hp⟩ := hwait t ht
    rw [hx] at hy; simp at hy; subst hy; exact ⟨q, hp⟩
  have cases3 : ∀ t, t < k ∨ t = k ∨ k < t := by intro t; omega
  have setOut : ∀ t (x y : Thread), s.threads[t]? = some x → k < t →
      ∀ i, i ≤ k → (s.threads.set t y)[i]? = s.threads[i]? := by
    intro t x y hx ht i hik
    rw [get_set s t i y x hx]
    have : i ≠ t := by omega
    simp [this]
  cases a with
  | submit t l' =>
    simp only [step] at h
    split at h
    · simp at h
    · rename_i x hx
      split at h
      · rename_i hc
        simp only [Option.some.injEq] at h; subst h
        have ht : k < t := by
          rcases cases3 t with ht | ht | ht
          · obtain ⟨q, hq⟩ := posW t x ht hx; rw [hq] at hc; simp at hc
          · subst ht; rw [hx] at hxk; simp at hxk; subst hxk; rw [htk] at hc; simp at hc
          · exact ht
        exact ⟨setOut t x _ hx ht, fun q j hq _ => hq⟩
      · simp at h
  | lock t =>
    simp only [step] at h
    split at h
    · simp at h
    · rename_i x hx
      split at h
      · rename_i q l' hp hl
        split at h
        · rename_i ho
          simp only [Option.some.injEq] at h; subst h
          have ht : k < t := by
            rcases cases3 t with ht | ht | ht
            · obtain ⟨q', hq⟩ := posW t x ht hx; rw [hq] at hp; simp at hp
            · subst ht; rw [hx] at hxk; simp at hxk; subst hxk
              rw [htk] at hl; simp at hl; rw [← hl.1, hrk] at ho; simp at ho
            · exact ht
          refine ⟨setOut t x _ hx ht, fun q' j hq _ => ?_⟩
          simp only [setOwner, setT]
          have : q' ≠ q := fun hh => by rw [hh, ho] at hq; simp at hq
          simp [this, hq]
        · simp at h
      · simp at h
  | create t =>
    simp only [step] at h
    split at h
    · simp at h
    · rename_i x hx
      split at h
      · rename_i q hp
        simp only [Option.some.injEq] at h; subst h
        have ht : k < t := by
          rcases cases3 t with ht | ht | ht
          · obtain ⟨q', hq⟩ := posW t x ht hx; rw [hq] at hp; simp at hp
          · subst ht; rw [hx] at hxk; simp at hxk; subst hxk; rw [hok] at hp; simp at hp
          · exact ht
        refine ⟨fun i hik => ?_, fun q j hq _ => hq⟩
        simp only [setT]
        rw [List.getElem?_append_left (by simp; omega)]
        exact setOut t x _ hx ht i hik
      · simp at h
  | unlock t =>
    simp only [step] at h
    split at h
    · simp at h
    · rename_i x hx
      split at h
      · rename_i q hp
        simp only [Option.some.injEq] at h; subst h
        have ht : k < t := by
          rcases cases3 t with ht | ht | ht
          · obtain ⟨q', hq⟩ := posW t x ht hx; rw [hq] at hp; simp at hp
          · subst ht; rw [hx] at hxk; simp at hxk; subst hxk; rw [hok] at hp; simp at hp
          · exact ht
        refine ⟨setOut t x _ hx ht, fun q' j hq hj => ?_⟩
        have hop : s.owner q = some t := (hi.own q t).mpr ⟨x, hx, by simp [hp, held]⟩
        have : q' ≠ q := fun hh => by rw [hh, hop] at hq; simp at hq; omega
        simp [setOwner, setT, this, hq]
      · simp at h
  | initDone t =>
    simp only [step] at h
    split at h
    · simp at h
    · rename_i x hx
      split at h
      · rename_i hc
        simp only [Option.some.injEq] at h; subst h
        have ht : k < t := by
          rcases cases3 t with ht | ht | ht
          · obtain ⟨q, hq⟩ := posW t x ht hx; rw [hq] at hc; simp at hc
          · subst ht; rw [hx] at hxk; simp at hxk; subst hxk; rw [htk] at hc; simp at hc
          · exact ht
        exact ⟨setOut t x _ hx ht, fun q j hq _ => hq⟩
      · simp at h
  | resume t =>
    simp only [step] at h
    split at h
    · simp at h
    · rename_i x hx
      split at h
      · rename_i q c hp
        split at h
        · simp at h
        · rename_i y hy
          split at h
          · rename_i hry
            simp only [Option.some.injEq] at h; subst h
            have ht : k < t := by
              rcases cases3 t with ht | ht | ht
              · obtain ⟨q', hq⟩ := posW t x ht hx
                rw [hq] at hp; simp at hp
                have := hfresh (t + 1) y (by omega) (by omega) (by rw [hp.2]; exact hy)
                rw [this] at hry; simp at hry
              · subst ht; rw [hx] at hxk; simp at hxk; subst hxk; rw [hok] at hp; simp at hp
              · exact ht
            refine ⟨setOut t x _ hx ht, fun q' j hq hj => ?_⟩
            have hop : s.owner q = some t := (hi.own q t).mpr ⟨x, hx, by simp [hp, held]⟩
            have : q' ≠ q := fun hh => by rw [hh, hop] at hq; simp at hq; omega
            simp [setOwner, setT, this, hq]
          · simp at h
      · simp at h

theorem dead_step {g : Prog} {s s' : St} {a : Act} {p k : Nat} (hi : Ok g s) (hd : Dead s p k)
    (h : step g s a = some s') : Dead s' p k := by
  obtain ⟨h1, h2⟩ := dead_frozen hi hd h
  refine ⟨?_, ?_, ?_, ?_⟩
  · rw [h1 0 (by omega)]; exact hd.zero
  · intro i hik; rw [h1 i (by omega)]; exact hd.wait i hik
  · intro i x h0 hik; rw [h1 i hik]; exact hd.fresh i x h0 hik
  · obtain ⟨x, r, l, j, hx, ho, ht, hr, hj⟩ := hd.last
    exact ⟨x, r, l, j, by rw [h1 k (by omega)]; exact hx, ho, ht, h2 r j hr hj, hj⟩

theorem dead_run {g : Prog} {p k : Nat} : ∀ (as : List Act) {s s' : St}, Ok g s → Dead s p k →
    run g s as = some s' → Dead s' p k
  | [], s, s', _, hd, h => by simp [run] at h; subst h; exact hd
  | a :: as, s, s', hi, hd, h => by
    simp only [run] at h
    split at h
    · simp at h
    · rename_i s1 h1; exact dead_run as (inv_step hi h1) (dead_step hi hd h1) h

/-! ## Reaching it -/

theorem run_append {g : Prog} : ∀ (l m : List Act) (u v : St), run g u l = some v → run g u (l ++ m) = run g v m
  | [], m, u, v, hu => by simp [run] at hu; subst hu; rfl
  | a :: l, m, u, v, hu => by
    cases h1 : step g u a with
    | none => simp [run, h1] at hu
    | some u1 =>
      simp only [run, List.cons_append, h1] at hu ⊢
      exact run_append l m u1 v hu

/-- How many entries of `S` have a free lock. Models no code of its own. -/
def freeIn (s : St) (S : List Nat) : Nat := (S.filter fun q => decide (s.owner q = none)).length

/-- The chain under construction. Models no code of its own. -/
structure Chain (g : Prog) (S : List Nat) (s : St) (p k : Nat) : Prop where
  ok : Ok g s
  len : s.threads.length = k + 1
  zero : 0 < k → ∃ x, s.threads[0]? = some x ∧ x.pos = .creating p 1
  wait : ∀ i, i < k → ∃ x q, s.threads[i]? = some x ∧ x.pos = .creating q (i + 1)
  fresh : ∀ i x, 0 < i → i ≤ k → s.threads[i]? = some x → x.ready = false
  last : ∃ x, s.threads[k]? = some x ∧ x.pos = .out ∧ (∃ q ∈ x.todo, q ∈ S) ∧ (k = 0 → ∃ l, x.todo = p :: l)

theorem filter_lt {α : Type} {P Q : α → Bool} : ∀ (l : List α), (∀ x ∈ l, Q x = true → P x = true) →
    (∃ x ∈ l, P x = true ∧ Q x = false) → (l.filter Q).length < (l.filter P).length
  | [], _, h => by simp at h
  | a :: l, h1, h2 => by
    have le : ∀ (m : List α), (∀ x ∈ m, Q x = true → P x = true) → (m.filter Q).length ≤ (m.filter P).length := by
      intro m
      induction m with
      | nil => simp
      | cons b m ih =>
        intro h
        have := ih (fun x hx => h x (by simp [hx]))
        by_cases hq : Q b = true
        · simp [hq, h b (by simp) hq]; exact this
        · by_cases hp : P b = true
          · simp [hq, hp]; omega
          · simp [hq, hp]; exact this
    have l1 := le l (fun x hx => h1 x (by simp [hx]))
    by_cases hq : Q a = true
    · have hp := h1 a (by simp) hq
      have := filter_lt l (fun x hx => h1 x (by simp [hx])) (by
        obtain ⟨x, hx, hh⟩ := h2
        rcases List.mem_cons.mp hx with rfl | hx
        · rw [hq] at hh; simp at hh
        · exact ⟨x, hx, hh⟩)
      simp [hq, hp]; omega
    · by_cases hp : P a = true
      · simp [hq, hp]; omega
      · have := filter_lt l (fun x hx => h1 x (by simp [hx])) (by
          obtain ⟨x, hx, hh⟩ := h2
          rcases List.mem_cons.mp hx with rfl | hx
          · exact absurd hh.1 hp
          · exact ⟨x, hx, hh⟩)
        simp [hq, hp]; omega

theorem chain_reaches {g : Prog} {S : List Nat} (hS : ∀ p ∈ S, ∃ q ∈ g p, q ∈ S) :
    ∀ (m n : Nat) (s : St) (p k : Nat) (x : Thread), freeIn s S ≤ m → s.threads[k]? = some x → x.todo.length ≤ n →
      p ∈ S → (k = 0 → s.owner p = none) → Chain g S s p k →
      ∃ as s' k', run g s as = some s' ∧ Ok g s' ∧ Dead s' p k' := by
  intro m
  induction m with
  | zero =>
    -- no free pool left in S: only the todo shrinks
    intro n
    induction n with
    | zero =>
      intro s p k x _ hx hn _ _ hc
      obtain ⟨y, hy, _, ⟨q, hq, _⟩, _⟩ := hc.last
      rw [hx] at hy; simp at hy; subst hy
      have : x.todo = [] := List.length_eq_zero_iff.mp (by omega)
      rw [this] at hq; simp at hq
    | succ n ih =>
      intro s p k x hm hx hn hpS hk0 hc
      obtain ⟨y, hy, hpo, ⟨q, hq, hqS⟩, hz⟩ := hc.last
      rw [hx] at hy; simp at hy; subst hy
      have hfree0 : ∀ r ∈ S, s.owner r ≠ none := by
        intro r hr ho
        have : r ∈ S.filter fun q => decide (s.owner q = none) := by simp [hr, ho]
        have := List.length_pos_of_mem this
        unfold freeIn at hm; omega
      by_cases hk : k = 0
      · exact absurd (hk0 hk) (hfree0 p hpS)
      match ht : x.todo with
      | [] => rw [ht] at hq; simp at hq
      | r :: l =>
        by_cases hf : s.owner r = none
        · -- a pool outside S: call it without creating
          have hrS : r ∉ S := fun h => hfree0 r h hf
          have e1 : step g s (.lock k) = some (setOwner (setT s k { x with todo := l, pos := .locked r }) r (some k)) := by
            simp [step, hx, hpo, ht, hf]
          have hx1 : (setOwner (setT s k { x with todo := l, pos := .locked r }) r (some k)).threads[k]? =
              some { x with todo := l, pos := .locked r } := by
            simp only [setOwner, setT]; rw [get_set s k k _ x hx]; simp
          have e2 : step g (setOwner (setT s k { x with todo := l, pos := .locked r }) r (some k)) (.unlock k) =
              some (setOwner (setT (setOwner (setT s k { x with todo := l, pos := .locked r }) r (some k)) k
                { x with todo := l, pos := .out }) r none) := by
            simp only [step, hx1]
          have o1 := inv_step hc.ok e1
          have o2 := inv_step o1 e2
          have hg : ∀ i, (setOwner (setT (setOwner (setT s k { x with todo := l, pos := .locked r }) r (some k)) k
                { x with todo := l, pos := .out }) r none).threads[i]? =
                if i = k then some { x with todo := l, pos := .out } else s.threads[i]? := by
            intro i
            simp only [setOwner, setT, List.set_set]
            exact get_set s k i _ x hx
          have how : (setOwner (setT (setOwner (setT s k { x with todo := l, pos := .locked r }) r (some k)) k
                { x with todo := l, pos := .out }) r none).owner = s.owner := by
            funext z
            simp only [setOwner, setT]
            by_cases hz : z = r <;> simp [hz, hf]
          generalize hs2 : (setOwner (setT (setOwner (setT s k { x with todo := l, pos := .locked r }) r (some k)) k
                { x with todo := l, pos := .out }) r none) = s2 at *
          have hlen2 : s2.threads.length = k + 1 := by
            rw [← hs2]; simp [setOwner, setT]; exact hc.len
          have hch : Chain g S s2 p k := by
            refine ⟨o2, hlen2, ?_, ?_, ?_, ?_⟩
            · intro h0; rw [hg]; have : (0 : Nat) ≠ k := by omega
              simp only [this, if_false]; exact hc.zero h0
            · intro i hi; rw [hg]; have : i ≠ k := by omega
              simp only [this, if_false]; exact hc.wait i hi
            · intro i y h0 hi hy
              rw [hg] at hy
              by_cases he : i = k
              · simp [he] at hy; subst hy; exact hc.fresh k x (by omega) (Nat.le_refl _) hx
              · simp [he] at hy; exact hc.fresh i y h0 hi hy
            · refine ⟨{ x with todo := l, pos := .out }, by rw [hg]; simp, rfl, ⟨q, ?_, hqS⟩, fun h => absurd h hk⟩
              rw [ht] at hq
              rcases List.mem_cons.mp hq with rfl | hq
              · exact absurd hqS hrS
              · exact hq
          obtain ⟨as, s', k', hr, ho, hd⟩ := ih s2 p k { x with todo := l, pos := .out }
            (by unfold freeIn; rw [how]; exact hm) (by rw [hg]; simp)
            (by rw [ht] at hn; simp at hn; simpa using hn) hpS (fun h => absurd h hk) hch
          exact ⟨.lock k :: .unlock k :: as, s', k', by simp only [run, e1, e2]; exact hr, ho, hd⟩
        · obtain ⟨j, hj⟩ := Option.ne_none_iff_exists'.mp hf
          refine ⟨[], s, k, rfl, hc.ok, hc.zero (by omega), hc.wait, hc.fresh, x, r, l, j, hx, hpo, ht, hj, ?_⟩
          obtain ⟨y, hy, hh⟩ := (hc.ok.own r j).mp hj
          have hjl : j < s.threads.length := by rw [List.getElem?_eq_some_iff] at hy; exact hy.1
          have : j ≠ k := fun he => by
            subst he; rw [hx] at hy; simp at hy; subst hy; rw [hpo] at hh; simp [held] at hh
          have := hc.len
          omega
  | succ m ihm =>
    intro n
    induction n with
    | zero =>
      intro s p k x _ hx hn _ _ hc
      obtain ⟨y, hy, _, ⟨q, hq, _⟩, _⟩ := hc.last
      rw [hx] at hy; simp at hy; subst hy
      have : x.todo = [] := List.length_eq_zero_iff.mp (by omega)
      rw [this] at hq; simp at hq
    | succ n ih =>
      intro s p k x hm hx hn hpS hk0 hc
      obtain ⟨y, hy, hpo, ⟨q, hq, hqS⟩, hz⟩ := hc.last
      rw [hx] at hy; simp at hy; subst hy
      match ht : x.todo with
      | [] => rw [ht] at hq; simp at hq
      | r :: l =>
        by_cases hf : s.owner r = none
        · have e1 : step g s (.lock k) = some (setOwner (setT s k { x with todo := l, pos := .locked r }) r (some k)) := by
            simp [step, hx, hpo, ht, hf]
          have hx1 : (setOwner (setT s k { x with todo := l, pos := .locked r }) r (some k)).threads[k]? =
              some { x with todo := l, pos := .locked r } := by
            simp only [setOwner, setT]; rw [get_set s k k _ x hx]; simp
          have o1 := inv_step hc.ok e1
          by_cases hrS : r ∈ S
          · -- create a queue of r
            have hlen1 : (setOwner (setT s k { x with todo := l, pos := .locked r }) r (some k)).threads.length = k + 1 := by
              simp [setOwner, setT]; exact hc.len
            have how1 : (setOwner (setT s k { x with todo := l, pos := .locked r }) r (some k)).owner =
                fun z => if z = r then some k else s.owner z := rfl
            have hg1 : ∀ i, (setOwner (setT s k { x with todo := l, pos := .locked r }) r (some k)).threads[i]? =
                if i = k then some { x with todo := l, pos := .locked r } else s.threads[i]? := by
              intro i; simp only [setOwner, setT]; exact get_set s k i _ x hx
            generalize hs1 : (setOwner (setT s k { x with todo := l, pos := .locked r }) r (some k)) = s1 at *
            have e2 : step g s1 (.create k) = some { (setT s1 k { x with todo := l, pos := .creating r (k + 1) }) with
                threads := (s1.threads.set k { x with todo := l, pos := .creating r (k + 1) }) ++
                  [{ todo := g r, pos := .out, ready := false, pool := r }] } := by
              simp only [step, hx1, hlen1, setT]
            have o2 := inv_step o1 e2
            have hg : ∀ i, ((s1.threads.set k { x with todo := l, pos := .creating r (k + 1) }) ++
                  [({ todo := g r, pos := .out, ready := false, pool := r } : Thread)])[i]? =
                if i = k + 1 then some { todo := g r, pos := .out, ready := false, pool := r }
                else if i = k then some { x with todo := l, pos := .creating r (k + 1) } else s.threads[i]? := by
              intro i
              rw [List.getElem?_append]
              simp only [List.length_set, hlen1]
              by_cases h1 : i < k + 1
              · have : i ≠ k + 1 := by omega
                simp only [h1, if_true, this, if_false]
                rw [get_set s1 k i _ _ hx1, hg1]
                by_cases h2 : i = k <;> simp [h2]
              · by_cases h2 : i = k + 1
                · simp [h2]
                · have h3 : i ≠ k := by omega
                  simp only [h1, h2, h3, if_false]
                  rw [List.getElem?_eq_none (by simp; omega), List.getElem?_eq_none (by rw [hc.len]; omega)]
            have how2 : ∀ (th : List Thread), ({ (setT s1 k { x with todo := l, pos := .creating r (k + 1) }) with
                threads := th } : St).owner = fun z => if z = r then some k else s.owner z := fun th => by
              simp only [setT]; exact how1
            have hthr : ∀ (th : List Thread), ({ (setT s1 k { x with todo := l, pos := .creating r (k + 1) }) with
                threads := th } : St).threads = th := fun _ => rfl
            have how3 := how2 ((s1.threads.set k { x with todo := l, pos := .creating r (k + 1) }) ++
                  [{ todo := g r, pos := .out, ready := false, pool := r }])
            have hthr3 := hthr ((s1.threads.set k { x with todo := l, pos := .creating r (k + 1) }) ++
                  [{ todo := g r, pos := .out, ready := false, pool := r }])
            generalize hs2 : ({ (setT s1 k { x with todo := l, pos := .creating r (k + 1) }) with
                threads := (s1.threads.set k { x with todo := l, pos := .creating r (k + 1) }) ++
                  [{ todo := g r, pos := .out, ready := false, pool := r }] } : St) = s2 at *
            rw [← hthr3] at hg
            obtain ⟨q', hq', hqS'⟩ := hS r hrS
            have hch : Chain g S s2 p (k + 1) := by
              refine ⟨o2, ?_, ?_, ?_, ?_, ?_⟩
              · rw [hthr3]; simp [hlen1]
              · intro _
                rw [hg]
                by_cases hk : k = 0
                · obtain ⟨l2, hl2⟩ := hz hk
                  have : r = p := by rw [ht] at hl2; simp at hl2; exact hl2.1
                  subst this
                  subst hk
                  simp
                · have h1 : (0 : Nat) ≠ k := by omega
                  have h2 : (0 : Nat) ≠ k + 1 := by omega
                  simp only [h1, h2, if_false]
                  exact hc.zero (by omega)
              · intro i hi
                rw [hg]
                have h2 : i ≠ k + 1 := by omega
                by_cases h1 : i = k
                · simp only [h2, if_false, h1, if_true]
                  subst h1
                  simp
                · simp only [h1, h2, if_false]
                  exact hc.wait i (by omega)
              · intro i y h0 hi hy
                rw [hg] at hy
                by_cases h2 : i = k + 1
                · simp [h2] at hy; subst hy; rfl
                · by_cases h1 : i = k
                  · simp [h1] at hy; subst hy
                    exact hc.fresh k x (by omega) (Nat.le_refl _) hx
                  · simp only [h1, h2, if_false] at hy; exact hc.fresh i y h0 (by omega) hy
              · exact ⟨_, by rw [hg]; simp; rfl, rfl, ⟨q', hq', hqS'⟩, fun h => by omega⟩
            have hfr : freeIn s2 S < freeIn s S := by
              unfold freeIn
              rw [how3]
              apply filter_lt
              · intro z _ hz
                by_cases hzr : z = r
                · simp [hzr] at hz
                · simpa [hzr] using hz
              · exact ⟨r, hrS, by simp [hf], by simp⟩
            obtain ⟨as, s', k', hr, ho, hd⟩ := ihm (g r).length s2 p (k + 1) _ (by omega)
              (by rw [hg]; simp; rfl) (Nat.le_refl _) hpS (fun h => by omega) hch
            exact ⟨.lock k :: .create k :: as, s', k', by simp only [run, e1, e2]; exact hr, ho, hd⟩
          · by_cases hk : k = 0
            · obtain ⟨l2, hl2⟩ := hz hk
              have : r = p := by rw [ht] at hl2; simp at hl2; exact hl2.1
              subst this; exact absurd hpS hrS
            have e2 : step g (setOwner (setT s k { x with todo := l, pos := .locked r }) r (some k)) (.unlock k) =
                some (setOwner (setT (setOwner (setT s k { x with todo := l, pos := .locked r }) r (some k)) k
                  { x with todo := l, pos := .out }) r none) := by
              simp only [step, hx1]
            have o2 := inv_step o1 e2
            have hg : ∀ i, (setOwner (setT (setOwner (setT s k { x with todo := l, pos := .locked r }) r (some k)) k
                  { x with todo := l, pos := .out }) r none).threads[i]? =
                  if i = k then some { x with todo := l, pos := .out } else s.threads[i]? := by
              intro i
              simp only [setOwner, setT, List.set_set]
              exact get_set s k i _ x hx
            have how : (setOwner (setT (setOwner (setT s k { x with todo := l, pos := .locked r }) r (some k)) k
                  { x with todo := l, pos := .out }) r none).owner = s.owner := by
              funext z
              simp only [setOwner, setT]
              by_cases hz : z = r <;> simp [hz, hf]
            generalize hs2 : (setOwner (setT (setOwner (setT s k { x with todo := l, pos := .locked r }) r (some k)) k
                  { x with todo := l, pos := .out }) r none) = s2 at *
            have hlen2 : s2.threads.length = k + 1 := by
              rw [← hs2]; simp [setOwner, setT]; exact hc.len
            have hch : Chain g S s2 p k := by
              refine ⟨o2, hlen2, ?_, ?_, ?_, ?_⟩
              · intro h0; rw [hg]; have : (0 : Nat) ≠ k := by omega
                simp only [this, if_false]; exact hc.zero h0
              · intro i hi; rw [hg]; have : i ≠ k := by omega
                simp only [this, if_false]; exact hc.wait i hi
              · intro i y h0 hi hy
                rw [hg] at hy
                by_cases he : i = k
                · simp [he] at hy; subst hy; exact hc.fresh k x (by omega) (Nat.le_refl _) hx
                · simp [he] at hy; exact hc.fresh i y h0 hi hy
              · refine ⟨{ x with todo := l, pos := .out }, by rw [hg]; simp, rfl, ⟨q, ?_, hqS⟩, fun h => absurd h hk⟩
                rw [ht] at hq
                rcases List.mem_cons.mp hq with rfl | hq
                · exact absurd hqS hrS
                · exact hq
            obtain ⟨as, s', k', hr, ho, hd⟩ := ih s2 p k { x with todo := l, pos := .out }
              (by unfold freeIn; rw [how]; exact hm) (by rw [hg]; simp)
              (by rw [ht] at hn; simp at hn; simpa using hn) hpS (fun h => absurd h hk) hch
            exact ⟨.lock k :: .unlock k :: as, s', k', by simp only [run, e1, e2]; exact hr, ho, hd⟩
        · by_cases hk : k = 0
          · obtain ⟨l2, hl2⟩ := hz hk
            have : r = p := by rw [ht] at hl2; simp at hl2; exact hl2.1
            subst this; exact absurd (hk0 hk) hf
          obtain ⟨j, hj⟩ := Option.ne_none_iff_exists'.mp hf
          refine ⟨[], s, k, rfl, hc.ok, hc.zero (by omega), hc.wait, hc.fresh, x, r, l, j, hx, hpo, ht, hj, ?_⟩
          obtain ⟨y, hy, hh⟩ := (hc.ok.own r j).mp hj
          have hjl : j < s.threads.length := by rw [List.getElem?_eq_some_iff] at hy; exact hy.1
          have : j ≠ k := fun he => by
            subst he; rw [hx] at hy; simp at hy; subst hy; rw [hpo] at hh; simp [held] at hh
          have := hc.len
          omega

/-- **C214 (the violation, circles of any length).**  Let each pool of `S` have an init function that
uses a pool of `S`.  Then a single thread's call on any pool of `S` can block for ever: there is a
schedule after which, whatever happens, the call has not returned. -/
theorem C214_closed {g : Prog} {S : List Nat} (hS : ∀ p ∈ S, ∃ q ∈ g p, q ∈ S) (p : Nat) (hp : p ∈ S) :
    ∃ as s, run g (init 1) (.submit 0 [p] :: as) = some s ∧
      ∀ more s', run g s more = some s' → ∃ x, s'.threads[0]? = some x ∧ x.pos = .creating p 1 := by
  have e0 : step g (init 1) (.submit 0 [p]) =
      some { threads := [{ todo := [p], pos := .out, ready := true, pool := 0 }], owner := fun _ => none } := by
    simp [step, init, setT]
  have o0 := inv_step (inv_init g 1) e0
  obtain ⟨as, s', k', hr, ho, hd⟩ := chain_reaches hS _ 1
    { threads := [{ todo := [p], pos := .out, ready := true, pool := 0 }], owner := fun _ => none } p 0
    { todo := [p], pos := .out, ready := true, pool := 0 } (Nat.le_refl _) rfl (by simp) hp (fun _ => rfl)
    ⟨o0, rfl, fun h => absurd h (by omega), fun i h => absurd h (by omega), fun i x h0 h => absurd h (by omega),
      _, rfl, rfl, ⟨p, by simp, hp⟩, fun _ => ⟨[], rfl⟩⟩
  refine ⟨as, s', by simp only [run, e0]; exact hr, ?_⟩
  intro more s'' hm
  exact (dead_run more ho hd hm).zero

/-! ## Nothing else -/

theorem le_sum {a : Nat} : ∀ {l : List Nat}, a ∈ l → a ≤ sum l
  | [], h => by simp at h
  | b :: l, h => by
    rcases List.mem_cons.mp h with rfl | h
    · simp [sum]
    · have := le_sum h; simp [sum]; omega

theorem peel {g : Prog} (hno : ¬ ∃ S : List Nat, S ≠ [] ∧ ∀ p ∈ S, ∃ q ∈ g p, q ∈ S) :
    ∀ (n : Nat) (S : List Nat), S.length ≤ n →
      (∃ rank : Nat → Nat, ∀ p, p ∉ S → ∀ q ∈ g p, q ∉ S ∧ rank q < rank p) →
      ∃ rank, Ranked g rank
  | 0, S, hl, ⟨rank, h⟩ => by
    have : S = [] := List.length_eq_zero_iff.mp (by omega)
    subst this
    exact ⟨rank, fun p q hq => (h p (by simp) q hq).2⟩
  | n + 1, S, hl, ⟨rank, h⟩ => by
    by_cases hs : S = []
    · subst hs; exact ⟨rank, fun p q hq => (h p (by simp) q hq).2⟩
    · have : ¬ ∀ p ∈ S, ∃ q ∈ g p, q ∈ S := fun hh => hno ⟨S, hs, hh⟩
      have : ∃ p, p ∈ S ∧ ∀ q ∈ g p, q ∉ S := by
        apply Classical.byContradiction
        intro hn
        apply this
        intro p hp
        apply Classical.byContradiction
        intro hn2
        exact hn ⟨p, hp, fun q hq hqS => hn2 ⟨q, hq, hqS⟩⟩
      obtain ⟨p, hp, hq⟩ := this
      refine peel hno n (S.filter (· ≠ p)) ?_ ⟨fun z => if z = p then 1 + sum ((g p).map rank) else rank z, ?_⟩
      · have := filter_lt (P := fun _ => true) (Q := fun z => decide (z ≠ p)) S (fun _ _ _ => rfl)
          ⟨p, hp, rfl, by simp⟩
        have e : S.filter (fun _ => true) = S := by simp
        rw [e] at this
        omega
      · intro z hz q hqz
        by_cases hzp : z = p
        · subst hzp
          have h1 := hq q hqz
          have h2 : q ≠ z := fun hh => by rw [hh] at h1; exact h1 hp
          refine ⟨fun hm => h1 (List.mem_filter.mp hm).1, ?_⟩
          simp only [h2, if_false, if_true]
          have := le_sum (List.mem_map_of_mem (f := rank) hqz)
          omega
        · have hzS : z ∉ S := fun hh => hz (by simp [hh, hzp])
          obtain ⟨h1, h2⟩ := h z hzS q hqz
          have h3 : q ≠ p := fun hh => by rw [hh] at h1; exact h1 hp
          refine ⟨fun hm => h1 (List.mem_filter.mp hm).1, ?_⟩
          simp only [h3, hzp, if_false]; exact h2

/-- **C214 (exactly when).**  For finitely many pools one of two things holds: the pools can be
ranked, and then (`C214_finish_partial`) every call returns under every schedule; or some call of a
single thread can block for ever. -/
theorem C214_dichotomy (g : Prog) (n : Nat) (hfin : ∀ p, n ≤ p → g p = []) :
    (∃ rank, Ranked g rank) ∨
    (∃ p as s, run g (init 1) (.submit 0 [p] :: as) = some s ∧
      ∀ more s', run g s more = some s' → ∃ x, s'.threads[0]? = some x ∧ x.pos = .creating p 1) := by
  by_cases h : ∃ S : List Nat, S ≠ [] ∧ ∀ p ∈ S, ∃ q ∈ g p, q ∈ S
  · obtain ⟨S, hne, hS⟩ := h
    right
    obtain ⟨p, hp⟩ := List.exists_mem_of_ne_nil S hne
    obtain ⟨as, s, h1, h2⟩ := C214_closed hS p hp
    exact ⟨p, as, s, h1, h2⟩
  · left
    refine peel h n (List.range n) (by simp) ⟨fun _ => 0, ?_⟩
    intro p hp q hq
    have : n ≤ p := by simpa using hp
    rw [hfin p this] at hq
    simp at hq

/-- The two cases exclude each other. -/
theorem C214_exclusive {g : Prog} {rank : Nat → Nat} (hr : Ranked g rank) :
    ¬ ∃ p as s, run g (init 1) (.submit 0 [p] :: as) = some s ∧
      ∀ more s', run g s more = some s' → ∃ x, s'.threads[0]? = some x ∧ x.pos = .creating p 1 := by
  rintro ⟨p, as, s, h1, h2⟩
  have hreach : ∀ more s', run g s more = some s' → Reachable g s' := by
    intro more s' hm
    exact ⟨1, (.submit 0 [p] :: as) ++ more, by rw [run_append _ _ _ _ h1]; exact hm⟩
  -- run the inner steps until none is left
  have key : ∀ (n : Nat) (more : List Act) (u : St), run g s more = some u → sCost (callCost g rank) u ≤ n → False := by
    intro n
    induction n with
    | zero =>
      intro more u hm hn
      obtain ⟨x, hx, hp⟩ := h2 more u hm
      obtain ⟨a, s'', ha, hst⟩ := C214_progress_partial hr (hreach more u hm) hx (fun hq => by rw [hq.1] at hp; simp at hp)
      have := cost_step hr ha hst
      omega
    | succ n ih =>
      intro more u hm hn
      obtain ⟨x, hx, hp⟩ := h2 more u hm
      obtain ⟨a, s'', ha, hst⟩ := C214_progress_partial hr (hreach more u hm) hx (fun hq => by rw [hq.1] at hp; simp at hp)
      have := cost_step hr ha hst
      exact ih (more ++ [a]) s'' (by rw [run_append _ _ _ _ hm]; simp [run, hst]) (by omega)
  exact key _ [] s rfl (Nat.le_refl _)

/-! ## Concrete cases -/

/-- A circle of three pools with a harmless use in between, and a pool outside it. Models no code of its own. -/
def exThree : Prog := fun p => if p = 0 then [3, 1] else if p = 1 then [2, 3] else if p = 2 then [0] else []

example : ∀ p ∈ [0, 1, 2], ∃ q ∈ exThree p, q ∈ [0, 1, 2] := by decide

example : ∀ p, 4 ≤ p → exThree p = [] := by
  intro p hp; unfold exThree
  rw [if_neg (by omega), if_neg (by omega), if_neg (by omega)]

end Verif.PoolInit
