import Verif.PoolInit

/-!
# C214: pool calls return

Every pool call returns, whatever the init functions of the pools do?  No: `C214_self_use` shows
that a call which creates a queue for a pool whose init function uses that same pool never returns,
and that nobody ever gets that pool's lock again.  The `_partial` theorems say what holds when the
pools can be ranked so that init functions use pools of smaller rank only.
-/

namespace Verif.PoolInit

/-! ## Specification -/

/-- The thread has no pool call under way and none left to make, and no init function runs in it. -/
def Quiet (x : Thread) : Prop := x.pos = .out ∧ x.todo = [] ∧ x.ready = true

/-- Histories that start with any number of user threads. -/
def Reachable (g : Prog) (s : St) : Prop := ∃ n as, run g (init n) as = some s

/-- A step of a call under way, not the start of new calls. -/
def Inner : Act → Prop
  | .submit _ _ => False
  | _ => True

/-- Init functions use pools of smaller rank only. -/
def Ranked (g : Prog) (rank : Nat → Nat) : Prop := ∀ p q, q ∈ g p → rank q < rank p

/-! ## Invariant -/

def held : At → Option Nat
  | .out => none
  | .locked p => some p
  | .creating p _ => some p

structure Ok (g : Prog) (s : St) : Prop where
  own : ∀ p t, s.owner p = some t ↔ ∃ x : Thread, s.threads[t]? = some x ∧ held x.pos = some p
  cre : ∀ (t : Nat) (x : Thread) (p c : Nat), s.threads[t]? = some x → x.pos = .creating p c →
    ∃ y : Thread, s.threads[c]? = some y ∧ y.pool = p
  ini : ∀ (t : Nat) (x : Thread), s.threads[t]? = some x → x.ready = false →
    (∀ q ∈ x.todo, q ∈ g x.pool) ∧ (∀ q, held x.pos = some q → q ∈ g x.pool)

theorem inv_init (g : Prog) (n : Nat) : Ok g (init n) := by
  have h : ∀ (t : Nat) (x : Thread), (init n).threads[t]? = some x → x = ({ todo := [], pos := .out, ready := true, pool := 0 } : Thread) := by
    intro t x h
    simp [init, List.getElem?_replicate] at h
    exact h.2.symm
  constructor
  · intro p t
    constructor
    · intro h1; simp [init] at h1
    · rintro ⟨x, h1, h2⟩; rw [h t x h1] at h2; simp [held] at h2
  · intro t x p c h1 h2; rw [h t x h1] at h2; simp at h2
  · intro t x h1 h2; rw [h t x h1] at h2; simp at h2

theorem get_set (s : St) (t u : Nat) (x y : Thread) (h : s.threads[t]? = some y) :
    (s.threads.set t x)[u]? = if u = t then some x else s.threads[u]? := by
  have : t < s.threads.length := by
    rw [List.getElem?_eq_some_iff] at h; exact h.1
  rw [List.getElem?_set]
  by_cases hu : t = u
  · subst hu; simp [this]
  · simp [hu, Ne.symm hu]

theorem inv_step {g : Prog} {s s' : St} {a : Act} (hi : Ok g s) (h : step g s a = some s') : Ok g s' := by
  obtain ⟨hown, hcre, hini⟩ := hi
  cases a with
  | submit t l =>
    simp only [step] at h
    split at h
    · simp at h
    · rename_i x hx
      split at h
      · rename_i hc
        simp only [Option.some.injEq] at h; subst h
        have gs := fun u y => get_set s t u y x hx
        constructor <;> simp only [setT, gs] <;> grind [held]
      · simp at h
  | lock t =>
    simp only [step] at h
    split at h
    · simp at h
    · rename_i x hx
      split at h
      · rename_i p l hp hl
        split at h
        · rename_i ho
          simp only [Option.some.injEq] at h; subst h
          have gs := fun u y => get_set s t u y x hx
          constructor <;> simp only [setOwner, setT, gs] <;> grind [held]
        · simp at h
      · simp at h
  | create t =>
    simp only [step] at h
    split at h
    · simp at h
    · rename_i x hx
      split at h
      · rename_i p hp
        simp only [Option.some.injEq] at h; subst h
        have gs := fun u y => get_set s t u y x hx
        have hlt : t < s.threads.length := by
          rw [List.getElem?_eq_some_iff] at hx; exact hx.1
        have ga : ∀ u (y z : Thread), (s.threads.set t y ++ [z])[u]? =
            if u = s.threads.length then some z else if u = t then some y else s.threads[u]? := by
          intro u y z
          rw [List.getElem?_append]
          simp only [List.length_set, gs]
          by_cases h1 : u < s.threads.length
          · simp [h1, Nat.ne_of_lt h1]
          · by_cases h2 : u = s.threads.length
            · simp [h2]
            · have : s.threads.length < u := by omega
              have h3 : u ≠ t := by omega
              simp only [h1, h2, h3, if_false]
              rw [List.getElem?_eq_none (by simp; omega), List.getElem?_eq_none (by omega)]
        have hlen : s.threads[s.threads.length]? = none := List.getElem?_eq_none (Nat.le_refl _)
        constructor <;> simp only [setT, ga] <;> grind [held]
      · simp at h
  | unlock t =>
    simp only [step] at h
    split at h
    · simp at h
    · rename_i x hx
      split at h
      · rename_i p hp
        simp only [Option.some.injEq] at h; subst h
        have gs := fun u y => get_set s t u y x hx
        have hop : s.owner p = some t := (hown p t).mpr ⟨x, hx, by simp [hp, held]⟩
        refine ⟨?_, ?_, ?_⟩
        · intro p1 t1
          simp only [setOwner, setT, gs]
          have h1 := hown p1 t1
          by_cases e1 : p1 = p
          · subst e1
            by_cases e2 : t1 = t
            · simp [e2, held]
            · simp only [e2, if_true, if_false]
              rw [← h1, hop]; simp [Ne.symm e2]
          · by_cases e2 : t1 = t
            · subst e2
              simp only [e1, if_true, if_false]
              rw [h1, hx]; simp [hp, held, Ne.symm e1]
            · simp only [e1, e2, if_false]; exact h1
        all_goals simp only [setOwner, setT, gs] <;> grind [held]
      · simp at h
  | initDone t =>
    simp only [step] at h
    split at h
    · simp at h
    · rename_i x hx
      split at h
      · rename_i hc
        simp only [Option.some.injEq] at h; subst h
        have gs := fun u y => get_set s t u y x hx
        constructor <;> simp only [setT, gs] <;> grind [held]
      · simp at h
  | resume t =>
    simp only [step] at h
    split at h
    · simp at h
    · rename_i x hx
      split at h
      · rename_i p c hp
        split at h
        · simp at h
        · rename_i y hy
          split at h
          · simp only [Option.some.injEq] at h; subst h
            have gs := fun u y => get_set s t u y x hx
            have hop : s.owner p = some t := (hown p t).mpr ⟨x, hx, by simp [hp, held]⟩
            refine ⟨?_, ?_, ?_⟩
            · intro p1 t1
              simp only [setOwner, setT, gs]
              have h1 := hown p1 t1
              by_cases e1 : p1 = p
              · subst e1
                by_cases e2 : t1 = t
                · simp [e2, held]
                · simp only [e2, if_true, if_false]
                  rw [← h1, hop]; simp [Ne.symm e2]
              · by_cases e2 : t1 = t
                · subst e2
                  simp only [e1, if_true, if_false]
                  rw [h1, hx]; simp [hp, held, Ne.symm e1]
                · simp only [e1, e2, if_false]; exact h1
            all_goals simp only [setOwner, setT, gs] <;> grind [held]
          · simp at h
      · simp at h

theorem inv_run {g : Prog} : ∀ (as : List Act) {s s' : St}, Ok g s → run g s as = some s' → Ok g s'
  | [], s, s', hi, h => by simp [run] at h; exact h ▸ hi
  | a :: as, s, s', hi, h => by
    simp only [run] at h
    split at h
    · simp at h
    · rename_i s1 h1; exact inv_run as (inv_step hi h1) h

theorem inv_reachable {g : Prog} {s : St} (h : Reachable g s) : Ok g s := by
  obtain ⟨n, as, h⟩ := h; exact inv_run as (inv_init g n) h

/-! ## Progress -/

/-- As long as some pool's lock is held, some thread can go on. -/
theorem held_moves {g : Prog} {rank : Nat → Nat} (hr : Ranked g rank) {s : St} (hi : Ok g s) :
    ∀ (k p : Nat), rank p < k → s.owner p ≠ none → ∃ a s', Inner a ∧ step g s a = some s' := by
  intro k
  induction k with
  | zero => intro p h; omega
  | succ k ih =>
    intro p hk ho
    obtain ⟨t, ht⟩ := Option.ne_none_iff_exists'.mp ho
    obtain ⟨x, hx, hp⟩ := (hi.own p t).mp ht
    match hpos : x.pos with
    | .out => simp [hpos, held] at hp
    | .locked q => exact ⟨.unlock t, _, trivial, by simp [step, hx, hpos]; rfl⟩
    | .creating q c =>
      have hq : q = p := by simp [hpos, held] at hp; exact hp
      subst hq
      obtain ⟨y, hy, hyp⟩ := hi.cre t x q c hx hpos
      cases hyr : y.ready with
      | true => exact ⟨.resume t, _, trivial, by simp [step, hx, hpos, hy, hyr]; rfl⟩
      | false =>
        obtain ⟨h1, h2⟩ := hi.ini c y hy hyr
        match hyo : y.pos with
        | .locked r => exact ⟨.unlock c, _, trivial, by simp [step, hy, hyo]; rfl⟩
        | .creating r d =>
          have hm : r ∈ g q := hyp ▸ h2 r (by simp [hyo, held])
          have hw : s.owner r = some c := (hi.own r c).mpr ⟨y, hy, by simp [hyo, held]⟩
          exact ih r (by have := hr q r hm; omega) (by simp [hw])
        | .out =>
          match hyt : y.todo with
          | [] => exact ⟨.initDone c, _, trivial, by simp [step, hy, hyo, hyt, hyr]; rfl⟩
          | r :: l =>
            have hm : r ∈ g q := hyp ▸ h1 r (by simp [hyt])
            by_cases hf : s.owner r = none
            · exact ⟨.lock c, _, trivial, by simp [step, hy, hyo, hyt, hf]; rfl⟩
            · exact ih r (by have := hr q r hm; omega) hf

/-- **C214 (deadlock-freedom).**  If the pools can be ranked so that init functions use pools of
smaller rank only, then in every reachable state, for any number of pools, threads and calls, some
thread can go on as long as some call or init function has not returned. -/
theorem C214_progress_partial {g : Prog} {rank : Nat → Nat} (hr : Ranked g rank) {s : St}
    (h : Reachable g s) {t : Nat} {x : Thread} (hx : s.threads[t]? = some x) (hb : ¬ Quiet x) :
    ∃ a s', Inner a ∧ step g s a = some s' := by
  have hi := inv_reachable h
  have key : ∀ p, s.owner p ≠ none → ∃ a s', Inner a ∧ step g s a = some s' :=
    fun p hp => held_moves hr hi (rank p + 1) p (by omega) hp
  match hpos : x.pos with
  | .locked p => exact key p (by rw [(hi.own p t).mpr ⟨x, hx, by simp [hpos, held]⟩]; simp)
  | .creating p c => exact key p (by rw [(hi.own p t).mpr ⟨x, hx, by simp [hpos, held]⟩]; simp)
  | .out =>
    match ht : x.todo with
    | p :: l =>
      by_cases hf : s.owner p = none
      · exact ⟨.lock t, _, trivial, by simp [step, hx, hpos, ht, hf]; rfl⟩
      · exact key p hf
    | [] =>
      cases hrd : x.ready with
      | true => exact absurd ⟨hpos, ht, hrd⟩ hb
      | false => exact ⟨.initDone t, _, trivial, by simp [step, hx, hpos, ht, hrd]; rfl⟩

/-! ## Termination -/

def sum : List Nat → Nat
  | [] => 0
  | a :: l => a + sum l

theorem sum_append (a b : List Nat) : sum (a ++ b) = sum a + sum b := by
  induction a with
  | nil => simp [sum]
  | cons x a ih => simp [sum, ih]; omega

/-- The most steps a call to pool `p` can take, all init functions it starts included. -/
def cost (g : Prog) : Nat → Nat → Nat
  | 0, _ => 0
  | k + 1, p => 5 + sum ((g p).map (cost g k))

theorem cost_stable {g : Prog} {rank : Nat → Nat} (hr : Ranked g rank) :
    ∀ k p, rank p < k → cost g k p = cost g (rank p + 1) p := by
  intro k
  induction k using Nat.strongRecOn with
  | _ k ih =>
    intro p hp
    match k, hp with
    | k + 1, hp =>
      have e : ∀ q ∈ g p, cost g k q = cost g (rank p) q := by
        intro q hq
        have := hr p q hq
        by_cases hk : k = rank p
        · rw [hk]
        · rw [ih k (by omega) q (by omega), ih (rank p) (by omega) q this]
      simp only [cost]
      rw [List.map_congr_left e]

def callCost (g : Prog) (rank : Nat → Nat) (p : Nat) : Nat := cost g (rank p + 1) p

theorem callCost_eq {g : Prog} {rank : Nat → Nat} (hr : Ranked g rank) (p : Nat) :
    callCost g rank p = 5 + sum ((g p).map (callCost g rank)) := by
  unfold callCost
  simp only [cost]
  congr 2
  apply List.map_congr_left
  intro q hq
  rw [cost_stable hr (rank p) q (hr p q hq)]; simp [cost]

def posCost (w : Nat → Nat) : At → Nat
  | .out => 0
  | .locked p => w p - 1
  | .creating _ _ => 1

def tCost (w : Nat → Nat) (x : Thread) : Nat :=
  sum (x.todo.map w) + posCost w x.pos + (if x.ready then 0 else 1)

def sCost (w : Nat → Nat) (s : St) : Nat := sum (s.threads.map (tCost w))

theorem sum_set (f : Thread → Nat) : ∀ (l : List Thread) (t : Nat) (x y : Thread), l[t]? = some x →
    sum ((l.set t y).map f) + f x = sum (l.map f) + f y
  | [], t, x, y, h => by simp at h
  | a :: l, 0, x, y, h => by simp at h; subst h; simp [sum]; omega
  | a :: l, t + 1, x, y, h => by
    simp at h
    have := sum_set f l t x y h
    simp only [List.set_cons_succ, List.map_cons, sum]; omega

theorem cost_step {g : Prog} {rank : Nat → Nat} (hr : Ranked g rank) {s s' : St} {a : Act} (hn : Inner a)
    (h : step g s a = some s') : sCost (callCost g rank) s' < sCost (callCost g rank) s := by
  have hw := callCost_eq hr
  generalize callCost g rank = w at hw ⊢
  cases a with
  | submit t l => exact hn.elim
  | lock t =>
    simp only [step] at h
    split at h
    · simp at h
    · rename_i x hx
      split at h
      · rename_i p l hp hl
        split at h
        · rename_i ho
          simp only [Option.some.injEq] at h; subst h
          have e := sum_set (tCost w) s.threads t x { x with todo := l, pos := .locked p } hx
          have := hw p
          have e3 : tCost w x = w p + sum (l.map w) + (if x.ready then 0 else 1) := by
            simp [tCost, posCost, hp, hl, sum]
          have e4 : tCost w { x with todo := l, pos := .locked p } =
              sum (l.map w) + (w p - 1) + (if x.ready then 0 else 1) := by
            simp [tCost, posCost]
          rw [e3, e4] at e
          simp only [sCost, setOwner, setT]
          omega
        · simp at h
      · simp at h
  | create t =>
    simp only [step] at h
    split at h
    · simp at h
    · rename_i x hx
      split at h
      · rename_i p hp
        simp only [Option.some.injEq] at h; subst h
        have e := sum_set (tCost w) s.threads t x { x with pos := .creating p s.threads.length } hx
        have := hw p
        simp only [sCost, setT, List.map_append, sum_append, List.map_cons, List.map_nil, sum]
        have e2 : tCost w { todo := g p, pos := .out, ready := false, pool := p } = sum ((g p).map w) + 1 := by
          simp [tCost, posCost]
        have e3 : tCost w x = sum (x.todo.map w) + (w p - 1) + (if x.ready then 0 else 1) := by
          simp [tCost, posCost, hp]
        have e4 : tCost w { x with pos := .creating p s.threads.length } =
            sum (x.todo.map w) + 1 + (if x.ready then 0 else 1) := by
          simp [tCost, posCost]
        rw [e3, e4] at e
        rw [e2]
        omega
      · simp at h
  | unlock t =>
    simp only [step] at h
    split at h
    · simp at h
    · rename_i x hx
      split at h
      · rename_i p hp
        simp only [Option.some.injEq] at h; subst h
        have e := sum_set (tCost w) s.threads t x { x with pos := .out } hx
        have := hw p
        have e3 : tCost w x = sum (x.todo.map w) + (w p - 1) + (if x.ready then 0 else 1) := by
          simp [tCost, posCost, hp]
        have e4 : tCost w { x with pos := .out } = sum (x.todo.map w) + (if x.ready then 0 else 1) := by
          simp [tCost, posCost]
        rw [e3, e4] at e
        simp only [sCost, setOwner, setT]
        omega
      · simp at h
  | initDone t =>
    simp only [step] at h
    split at h
    · simp at h
    · rename_i x hx
      split at h
      · rename_i hc
        simp only [Option.some.injEq] at h; subst h
        have e := sum_set (tCost w) s.threads t x { x with ready := true } hx
        have e3 : tCost w x = 1 := by simp [tCost, posCost, hc, sum]
        have e4 : tCost w { x with ready := true } = 0 := by simp [tCost, posCost, hc, sum]
        rw [e3, e4] at e
        simp only [sCost, setT]
        omega
      · simp at h
  | resume t =>
    simp only [step] at h
    split at h
    · simp at h
    · rename_i x hx
      split at h
      · rename_i p c hp
        split at h
        · simp at h
        · rename_i y hy
          split at h
          · simp only [Option.some.injEq] at h; subst h
            have e := sum_set (tCost w) s.threads t x { x with pos := .out } hx
            have e3 : tCost w x = sum (x.todo.map w) + 1 + (if x.ready then 0 else 1) := by
              simp [tCost, posCost, hp]
            have e4 : tCost w { x with pos := .out } = sum (x.todo.map w) + (if x.ready then 0 else 1) := by
              simp [tCost, posCost]
            rw [e3, e4] at e
            simp only [sCost, setOwner, setT]
            omega
          · simp at h
      · simp at h

theorem cost_run {g : Prog} {rank : Nat → Nat} (hr : Ranked g rank) :
    ∀ (as : List Act) {s s' : St}, (∀ a ∈ as, Inner a) → run g s as = some s' →
      as.length + sCost (callCost g rank) s' ≤ sCost (callCost g rank) s
  | [], s, s', _, h => by simp [run] at h; subst h; simp
  | a :: as, s, s', hn, h => by
    simp only [run] at h
    split at h
    · simp at h
    · rename_i s1 h1
      have := cost_step hr (hn a (by simp)) h1
      have := cost_run hr as (fun b hb => hn b (by simp [hb])) h
      simp; omega

/-- **C214 (every call returns).**  With ranked pools, from any reachable state and under any
schedule, the calls and init functions under way are over after a bounded number of steps: no
schedule is longer than the bound, and one that cannot be continued has let every thread finish. -/
theorem C214_finish_partial {g : Prog} {rank : Nat → Nat} (hr : Ranked g rank) {s : St}
    (h : Reachable g s) :
    ∃ N, ∀ as s', (∀ a ∈ as, Inner a) → run g s as = some s' →
      as.length ≤ N ∧
      ((∀ a s'', Inner a → step g s' a ≠ some s'') → ∀ x ∈ s'.threads, Quiet x) := by
  refine ⟨sCost (callCost g rank) s, fun as s' hn hrun => ⟨?_, ?_⟩⟩
  · have := cost_run hr as hn hrun; omega
  · intro hstop x hx
    obtain ⟨t, ht⟩ := List.mem_iff_getElem?.mp hx
    apply Classical.byContradiction
    intro hq
    obtain ⟨n, as0, h0⟩ := h
    have hre : Reachable g s' := by
      refine ⟨n, as0 ++ as, ?_⟩
      have happ : ∀ (l : List Act) (u v : St), run g u l = some v → run g u (l ++ as) = run g v as := by
        intro l
        induction l with
        | nil => intro u v hu; simp [run] at hu; subst hu; rfl
        | cons a l ih =>
          intro u v hu
          cases h1 : step g u a with
          | none => simp [run, h1] at hu
          | some u1 =>
            simp only [run, List.cons_append, h1] at hu ⊢
            exact ih u1 v hu
      rw [happ as0 _ _ h0]; exact hrun
    obtain ⟨a, s'', ha, hst⟩ := C214_progress_partial hr hre ht hq
    exact hstop a s'' ha hst

/-! ## The deadlock -/

/-- What stays true for ever once a pool's init function is due to use that pool. -/
def Stuck (s : St) (p t c : Nat) : Prop :=
  (∃ x, s.threads[t]? = some x ∧ x.pos = .creating p c) ∧
  (∃ y, s.threads[c]? = some y ∧ y.ready = false ∧ p ∈ y.todo)

theorem stuck_step {g : Prog} {s s' : St} {a : Act} {p t c : Nat} (hi : Ok g s) (hs : Stuck s p t c)
    (h : step g s a = some s') : Stuck s' p t c := by
  obtain ⟨⟨x0, hx0, hp0⟩, ⟨y0, hy0, hr0, hm0⟩⟩ := hs
  have hown : s.owner p = some t := (hi.own p t).mpr ⟨x0, hx0, by simp [hp0, held]⟩
  cases a with
  | submit u l =>
    simp only [step] at h
    split at h
    · simp at h
    · rename_i x hx
      split at h
      · rename_i hc
        simp only [Option.some.injEq] at h; subst h
        have gs := fun v y => get_set s u v y x hx
        constructor <;> simp only [setT, gs] <;> grind
      · simp at h
  | lock u =>
    simp only [step] at h
    split at h
    · simp at h
    · rename_i x hx
      split at h
      · rename_i q l hp hl
        split at h
        · rename_i ho
          simp only [Option.some.injEq] at h; subst h
          have gs := fun v y => get_set s u v y x hx
          constructor <;> simp only [setOwner, setT, gs] <;> grind
        · simp at h
      · simp at h
  | create u =>
    simp only [step] at h
    split at h
    · simp at h
    · rename_i x hx
      split at h
      · rename_i q hp
        simp only [Option.some.injEq] at h; subst h
        have hlt : t < s.threads.length := by rw [List.getElem?_eq_some_iff] at hx0; exact hx0.1
        have hlc : c < s.threads.length := by rw [List.getElem?_eq_some_iff] at hy0; exact hy0.1
        have gs := fun v y => get_set s u v y x hx
        constructor
        · refine ⟨x0, ?_, hp0⟩
          simp only [setT]
          rw [List.getElem?_append_left (by simpa using hlt), gs]
          grind
        · simp only [setT]
          rw [List.getElem?_append_left (by simpa using hlc), gs]
          grind
      · simp at h
  | unlock u =>
    simp only [step] at h
    split at h
    · simp at h
    · rename_i x hx
      split at h
      · rename_i q hp
        simp only [Option.some.injEq] at h; subst h
        have gs := fun v y => get_set s u v y x hx
        constructor <;> simp only [setOwner, setT, gs] <;> grind
      · simp at h
  | initDone u =>
    simp only [step] at h
    split at h
    · simp at h
    · rename_i x hx
      split at h
      · rename_i hc
        simp only [Option.some.injEq] at h; subst h
        have gs := fun v y => get_set s u v y x hx
        constructor <;> simp only [setT, gs] <;> grind
      · simp at h
  | resume u =>
    simp only [step] at h
    split at h
    · simp at h
    · rename_i x hx
      split at h
      · rename_i q d hp
        split at h
        · simp at h
        · rename_i y hy
          split at h
          · simp only [Option.some.injEq] at h; subst h
            have gs := fun v y => get_set s u v y x hx
            constructor <;> simp only [setOwner, setT, gs] <;> grind
          · simp at h
      · simp at h

theorem stuck_run {g : Prog} {p t c : Nat} : ∀ (as : List Act) {s s' : St}, Ok g s → Stuck s p t c →
    run g s as = some s' → Ok g s' ∧ Stuck s' p t c
  | [], s, s', hi, hs, h => by simp [run] at h; subst h; exact ⟨hi, hs⟩
  | a :: as, s, s', hi, hs, h => by
    simp only [run] at h
    split at h
    · simp at h
    · rename_i s1 h1; exact stuck_run as (inv_step hi h1) (stuck_step hi hs h1) h

/-- **C214 (the violation).**  If the init function of pool `p` uses pool `p`, then a call that
creates a queue for `p` never returns, whatever the threads do afterwards: it waits for ever for the
thread it started, whose init function never returns, and the pool's lock is never free again. -/
theorem C214_self_use {g : Prog} {p : Nat} (hg : p ∈ g p) {s s1 s2 : St} (h : Reachable g s) {t : Nat}
    {x : Thread} (hx : s.threads[t]? = some x) (hp : x.pos = .locked p)
    (h1 : step g s (.create t) = some s1) (as : List Act) (h2 : run g s1 as = some s2) :
    (∃ x2 y2, s2.threads[t]? = some x2 ∧ x2.pos = .creating p s.threads.length ∧
      s2.threads[s.threads.length]? = some y2 ∧ y2.ready = false) ∧ s2.owner p = some t := by
  have hi := inv_reachable h
  have hi1 := inv_step hi h1
  have hlt : t < s.threads.length := by rw [List.getElem?_eq_some_iff] at hx; exact hx.1
  have hs1 : Stuck s1 p t s.threads.length := by
    simp only [step, hx, hp, Option.some.injEq] at h1
    subst h1
    constructor
    · refine ⟨{ x with pos := .creating p s.threads.length }, ?_, rfl⟩
      simp only [setT]
      rw [List.getElem?_append_left (by simpa using hlt), get_set s t t _ x hx]; simp
    · refine ⟨{ todo := g p, pos := .out, ready := false, pool := p }, ?_, rfl, hg⟩
      simp only [setT]
      rw [List.getElem?_append_right (by simp)]; simp
  obtain ⟨hi2, ⟨x2, hx2, hp2⟩, ⟨y2, hy2, hr2, _⟩⟩ := stuck_run as hi1 hs1 h2
  exact ⟨⟨x2, y2, hx2, hp2, hy2, hr2⟩, (hi2.own p t).mpr ⟨x2, hx2, by simp [hp2, held]⟩⟩

/-! ## Concrete cases -/

/-- Pool 2's init function uses pools 1 and 0, pool 1's uses pool 0 twice. -/
def exGood : Prog := fun p => if p = 2 then [1, 0] else if p = 1 then [0, 0] else []

example : Ranked exGood (fun p => p) := by
  intro p q; unfold exGood; split
  · simp; omega
  · split <;> simp; omega

/-- Two users: one creates a queue of pool 2 whose init function creates one of pool 1 while the
other user holds pool 0; all finish. -/
example : (run exGood (init 2) [.submit 0 [2], .submit 1 [0, 2], .lock 1, .lock 0, .create 0, .lock 2, .create 2,
    .unlock 1, .lock 3, .create 3, .initDone 4, .resume 3, .lock 3, .unlock 3, .initDone 3, .resume 2,
    .lock 2, .unlock 2, .initDone 2, .resume 0, .lock 1, .unlock 1]).map
    (fun s => s.threads.map fun x => (x.todo, x.ready, decide (x.pos = .out)))
    = some [([], true, true), ([], true, true), ([], true, true), ([], true, true), ([], true, true)] := by
  decide +kernel

/-- The pool's own init function uses it: the state `C214_self_use` starts from is reached, and no
thread can do anything after it but the other user start calls to other pools. -/
example : (run (fun _ => [0]) (init 2) [.submit 0 [0], .lock 0, .create 0]).isSome = true ∧
    (run (fun _ => [0]) (init 2) [.submit 0 [0], .lock 0, .create 0, .lock 2]).isNone = true := by
  decide +kernel

/-- Two pools whose init functions use each other: one user's call is enough to block them. -/
def exPair : Prog := fun p => if p = 0 then [1] else [0]

example : (run exPair (init 1) [.submit 0 [0], .lock 0, .create 0, .lock 1, .create 1]).isSome = true ∧
    (∀ a ∈ [Act.lock 0, .create 0, .unlock 0, .initDone 0, .resume 0, .lock 1, .create 1, .unlock 1,
        .initDone 1, .resume 1, .lock 2, .create 2, .unlock 2, .initDone 2, .resume 2],
      (run exPair (init 1) [.submit 0 [0], .lock 0, .create 0, .lock 1, .create 1, a]).isNone = true) := by
  decide +kernel

end Verif.PoolInit
