import Verif.SockPipe
/-! # C146: the wake-up sockets of queues -/
namespace Verif.SockPipe

/-- The ports the counter can take: one in four of the hundred. -/
def Reach (p : Nat) : Prop := ∃ k, k < 25 ∧ p = base + 4 * k

theorem next_reach (p : Nat) (h : Reach p) : Reach (next p) := by
  obtain ⟨k, hk, rfl⟩ := h
  refine ⟨(k + 11) % 25, by omega, ?_⟩
  simp only [next, base]
  omega

theorem reach_pos {p : Nat} (h : Reach p) : p ≠ 0 := by
  obtain ⟨k, -, rfl⟩ := h; simp [base]

/-- The bound sockets. -/
def bound (l : List (Nat × Nat)) : List (Nat × Nat) := l.filter (fun x => x.2 ≠ 0)

structure Inv (w : World) : Prop where
  port : Reach w.s.port
  fresh : ∀ x ∈ w.s.open_, x.1 < w.s.fresh
  ids : (w.s.open_.map Prod.fst).Nodup
  ports : ∀ x ∈ bound w.s.open_, Reach x.2
  once : ((bound w.s.open_).map Prod.snd).Nodup
  pair : ∀ pr ∈ w.live, pr.2 = pr.1 + 1 ∧ (pr.2, 0) ∈ w.s.open_
  sub : (w.live.map Prod.fst).Sublist ((bound w.s.open_).map Prod.fst)

theorem id_unique {l : List (Nat × Nat)} (h : (l.map Prod.fst).Nodup) {a b : Nat × Nat} (ha : a ∈ l) (hb : b ∈ l) (e : a.1 = b.1) : a = b := by
  induction l with
  | nil => cases ha
  | cons x l ih =>
    simp only [List.map_cons, List.nodup_cons, List.mem_map, not_exists, not_and] at h
    rcases List.mem_cons.1 ha with rfl | ha <;> rcases List.mem_cons.1 hb with rfl | hb
    · rfl
    · exact absurd e.symm (h.1 b (by assumption))
    · exact absurd e (h.1 a (by assumption))
    · exact ih h.2 ha hb

theorem inv_init : Inv World.init := by
  refine ⟨⟨0, by decide, rfl⟩, ?_, ?_, ?_, ?_, ?_, ?_⟩ <;> simp [World.init, init, bound]

theorem inv_create (w : World) (h : Inv w) (e : Env) : Inv (step w (.create e)) := by
  have hn := next_reach _ h.port
  have hp := reach_pos hn
  obtain ⟨e1, e2, e3⟩ := e
  simp only [step, create]
  cases e1
  · exact ⟨hn, h.fresh, h.ids, h.ports, h.once, h.pair, h.sub⟩
  · by_cases hm : next w.s.port ∈ w.s.open_.map Prod.snd
    · simp only [Bool.not_true, Bool.false_eq_true, if_false, hm, if_true]
      exact ⟨hn, fun x hx => Nat.lt_succ_of_lt (h.fresh x hx), h.ids, h.ports, h.once, h.pair, h.sub⟩
    · have hf : w.s.fresh ∉ w.s.open_.map Prod.fst := by
        intro hx; obtain ⟨y, hy, e⟩ := List.mem_map.1 hx; have := h.fresh y hy; omega
      have hf1 : w.s.fresh + 1 ∉ w.s.open_.map Prod.fst := by
        intro hx; obtain ⟨y, hy, e⟩ := List.mem_map.1 hx; have := h.fresh y hy; omega
      have hm2 : next w.s.port ∉ (bound w.s.open_).map Prod.snd := by
        intro hx; obtain ⟨y, hy, e⟩ := List.mem_map.1 hx
        exact hm (List.mem_map.2 ⟨y, (List.mem_filter.1 hy).1, e⟩)
      have b1 : bound ((w.s.fresh, next w.s.port) :: w.s.open_) = (w.s.fresh, next w.s.port) :: bound w.s.open_ := by simp [bound, hp]
      have b2 : bound ((w.s.fresh + 1, 0) :: (w.s.fresh, next w.s.port) :: w.s.open_) = (w.s.fresh, next w.s.port) :: bound w.s.open_ := by simp [bound, hp]
      simp only [Bool.not_true, Bool.false_eq_true, if_false, hm]
      cases e2
      · refine ⟨hn, ?_, ?_, ?_, ?_, ?_, ?_⟩
        · intro x hx; rcases List.mem_cons.1 hx with rfl | hx
          · exact Nat.lt_succ_self _
          · exact Nat.lt_succ_of_lt (h.fresh x hx)
        · simp only [Bool.not_false, if_true, List.map_cons, List.nodup_cons]; exact ⟨hf, h.ids⟩
        · simp only [Bool.not_false, if_true, b1]
          intro x hx; rcases List.mem_cons.1 hx with rfl | hx
          · exact hn
          · exact h.ports x hx
        · simp only [Bool.not_false, if_true, b1, List.map_cons, List.nodup_cons]; exact ⟨hm2, h.once⟩
        · intro pr hpr; exact ⟨(h.pair pr hpr).1, List.mem_cons_of_mem _ (h.pair pr hpr).2⟩
        · simp only [Bool.not_false, if_true, b1, List.map_cons]
          exact h.sub.cons _
      · cases e3
        · exact ⟨hn, fun x hx => Nat.lt_of_lt_of_le (h.fresh x hx) (Nat.le_add_right _ 2), h.ids, h.ports, h.once, h.pair, h.sub⟩
        · refine ⟨hn, ?_, ?_, ?_, ?_, ?_, ?_⟩
          · intro x hx
            simp only [Bool.not_true, Bool.false_eq_true, if_false] at hx ⊢
            rcases List.mem_cons.1 hx with rfl | hx
            · exact Nat.lt_succ_self _
            · rcases List.mem_cons.1 hx with rfl | hx
              · show w.s.fresh < w.s.fresh + 2; omega
              · have := h.fresh x hx; omega
          · simp only [Bool.not_true, Bool.false_eq_true, if_false, List.map_cons, List.nodup_cons, List.mem_cons]
            exact ⟨by rintro (h | h); · omega
                      · exact hf1 h, hf, h.ids⟩
          · simp only [Bool.not_true, Bool.false_eq_true, if_false, b2]
            intro x hx; rcases List.mem_cons.1 hx with rfl | hx
            · exact hn
            · exact h.ports x hx
          · simp only [Bool.not_true, Bool.false_eq_true, if_false, b2, List.map_cons, List.nodup_cons]; exact ⟨hm2, h.once⟩
          · simp only [Bool.not_true, Bool.false_eq_true, if_false]
            intro pr hpr
            rcases List.mem_cons.1 hpr with rfl | hpr
            · exact ⟨rfl, by simp⟩
            · exact ⟨(h.pair pr hpr).1, List.mem_cons_of_mem _ (List.mem_cons_of_mem _ (h.pair pr hpr).2)⟩
          · simp only [Bool.not_true, Bool.false_eq_true, if_false, b2, List.map_cons]
            exact h.sub.cons_cons _

theorem inv_destroy (w : World) (h : Inv w) (pr : Nat × Nat) : Inv (step w (.destroy pr)) := by
  simp only [step]
  split
  · rename_i hl
    have hbf : bound (w.s.open_.filter (fun x => x.1 ≠ pr.1 ∧ x.1 ≠ pr.2)) = (bound w.s.open_).filter (fun x => x.1 ≠ pr.1 ∧ x.1 ≠ pr.2) := by
      simp only [bound, List.filter_filter, Bool.and_comm]
    have hzero : ∀ x ∈ w.live, ∀ y ∈ w.live, x.1 ≠ y.2 := by
      intro x hx y hy e
      have h1 : x.1 ∈ (bound w.s.open_).map Prod.fst := h.sub.subset (List.mem_map.2 ⟨x, hx, rfl⟩)
      obtain ⟨z, hz, ez⟩ := List.mem_map.1 h1
      have := id_unique h.ids (List.mem_filter.1 hz).1 (h.pair y hy).2 (by simp only; omega)
      have hz0 := (List.mem_filter.1 hz).2
      rw [this] at hz0
      simp at hz0
    refine ⟨h.port, fun x hx => h.fresh x ((List.mem_filter.1 hx).1), ?_, ?_, ?_, ?_, ?_⟩
    · exact h.ids.sublist (List.filter_sublist.map _)
    · simp only [hbf]; exact fun x hx => h.ports x ((List.mem_filter.1 hx).1)
    · simp only [hbf]; exact h.once.sublist (List.filter_sublist.map _)
    · intro x hx
      obtain ⟨hx, hne⟩ := List.mem_filter.1 hx
      have hne : x ≠ pr := by simpa using hne
      refine ⟨(h.pair x hx).1, ?_⟩
      refine List.mem_filter.2 ⟨(h.pair x hx).2, ?_⟩
      have h1 := hzero pr hl x hx
      have h2 : x.2 ≠ pr.2 := by
        intro e; apply hne
        have := (h.pair x hx).1; have := (h.pair pr hl).1
        exact Prod.ext (by omega) e
      simp only [ne_eq, decide_eq_true_eq]
      exact ⟨fun e => h1 e.symm, h2⟩
    · have e1 : (w.live.filter (· ≠ pr)).map Prod.fst = (w.live.map Prod.fst).filter (fun i => decide (i ≠ pr.1 ∧ i ≠ pr.2)) := by
        rw [List.filter_map]
        congr 1
        apply List.filter_congr
        intro x hx
        simp only [Function.comp_apply]
        apply decide_eq_decide.2
        constructor
        · intro hne
          refine ⟨fun e => hne (Prod.ext e ?_), hzero x hx pr hl⟩
          have := (h.pair x hx).1; have := (h.pair pr hl).1; omega
        · rintro ⟨h1, -⟩ rfl; exact h1 rfl
      have e2 : (bound (w.s.open_.filter (fun x => x.1 ≠ pr.1 ∧ x.1 ≠ pr.2))).map Prod.fst = ((bound w.s.open_).map Prod.fst).filter (fun i => decide (i ≠ pr.1 ∧ i ≠ pr.2)) := by
        rw [hbf, List.filter_map]; rfl
      simp only [e1, e2]
      exact h.sub.filter _
  · exact h

theorem inv_run (ops : List Op) : ∀ w, Inv w → Inv (run w ops) := by
  induction ops with
  | nil => exact fun w h => h
  | cons o ops ih =>
    intro w h
    apply ih
    cases o with
    | create e => exact inv_create w h e
    | destroy pr => exact inv_destroy w h pr

/-- **C146** fails: however many queues the program wants and the OS allows, there are never more than 25 at a time on these platforms (the counter visits 25 of its 100 ports). -/
theorem C146_at_most_25 (ops : List Op) : (run World.init ops).live.length ≤ 25 := by
  have h := inv_run ops _ inv_init
  have h1 := h.sub.length_le
  have h2 : ((bound (run World.init ops).s.open_).map Prod.snd).length ≤ ((List.range 25).map (fun k => base + 4 * k)).length := by
    apply List.Nodup.length_le_of_subset h.once
    intro x hx
    obtain ⟨y, hy, rfl⟩ := List.mem_map.1 hx
    obtain ⟨k, hk, e⟩ := h.ports y hy
    exact List.mem_map.2 ⟨k, by simpa using hk, e.symm⟩
  simp only [List.length_map, List.length_range] at h1 h2
  omega

/-- What holds: if the OS gives the sockets, a queue gets its pair exactly if the port that is next is not in use; the pair is new, and its port too. -/
theorem C146_create_partial (ops : List Op) :
    ((create (run World.init ops).s good).2.isSome ↔ next (run World.init ops).s.port ∉ (run World.init ops).s.open_.map Prod.snd) ∧
    (∀ pr, (create (run World.init ops).s good).2 = some pr → ∀ x ∈ (run World.init ops).s.open_, x.1 ≠ pr.1 ∧ x.1 ≠ pr.2) := by
  have h := inv_run ops _ inv_init
  by_cases hm : next (run World.init ops).s.port ∈ (run World.init ops).s.open_.map Prod.snd
  · simp [create, good, hm]
  · refine ⟨by simp [create, good, hm], ?_⟩
    intro pr hpr x hx
    simp only [create, good, Bool.not_true, Bool.false_eq_true, if_false, hm, Option.some.injEq] at hpr
    subst hpr
    have := h.fresh x hx
    exact ⟨by simp only; omega, by simp only; omega⟩

/-- Create a queue and destroy it again, `n` times, with descriptors from `fd` on. -/
def churn : Nat → Nat → List Op
  | 0, _ => []
  | n + 1, fd => .create good :: .destroy (fd, fd + 1) :: churn n (fd + 2)

/-- A queue that was created once makes the creation of another one fail although there is no other queue: 24 queues have come and gone in between. -/
theorem C146_refused : (run World.init (.create good :: churn 24 2)).live = [(0, 1)] ∧ (create (run World.init (.create good :: churn 24 2)).s good).2 = none := by
  decide +kernel

/-- If the second socket cannot be had, the first one stays open and no queue has it. -/
theorem C146_leaks : (step World.init (.create ⟨true, false, true⟩)).live = [] ∧ (step World.init (.create ⟨true, false, true⟩)).s.open_ ≠ [] := by decide +kernel

/-- 25 is reached. -/
example : (run World.init (List.replicate 30 (.create good))).live.length = 25 := by decide +kernel

end Verif.SockPipe
