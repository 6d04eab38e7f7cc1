import Verif.RwWait

/-!
# C232: whoever asks for the write lock gets it
-/

namespace Verif.RwWait

/-! ## Specification -/

/-- All threads outside. -/
def init (n : Nat) : St := List.replicate n .out

/-- A thread is waiting for the write lock. -/
def waiting : Pc → Bool
  | .want | .try | .failed | .sleep => true
  | _ => false

/-- The steps of thread `t`. -/
def isOf (t : Nat) : Act → Bool
  | .rd u | .rdDone u | .wr u | .go u | .wrDone u => u = t

/-- In full: a history consists of rounds; in each round the one thread `t` that waits for the write lock makes a step and so does every
other thread, and whoever takes the read lock in a round or had it gives it back (the same number of rounds bounds every stay, so nobody
keeps the lock for long).  Then the waiting thread has the write lock after at most `B` rounds, `B` depending only on the number of
threads. -/
def WriterGetsIn : Prop := ∀ n : Nat, ∃ B : Nat, ∀ (t : Nat) (s0 s : St) (h0 : List Act) (rounds : List (List Act)),
  run (init n) h0 = some s0 → (s0[t]?.map waiting).getD false = true → run s0 rounds.flatten = some s →
  (∀ r ∈ rounds, Act.go t ∈ r ∧ ∀ u, u < n → Act.rd u ∈ r ∨ Act.rdDone u ∈ r ∨ Act.wr u ∈ r ∨ Act.go u ∈ r ∨ Act.wrDone u ∈ r) →
  (∀ r ∈ rounds, ∀ u, Act.rd u ∈ r → Act.rdDone u ∈ r) → (∀ u, u ≠ t → Act.wr u ∉ rounds.flatten ∧ Act.go u ∉ rounds.flatten) →
  B ≤ rounds.length → ∃ pre post, pre ++ post = rounds.flatten ∧ ∃ s1, run s0 pre = some s1 ∧ s1[t]? = some .writing

/-- Two readers and a writer: the readers relieve each other, the writer's tries fall on a time when one of them is in. -/
def relay : List Act := [.rd 1, .rdDone 0, .go 2, .go 2, .go 2, .go 2, .rd 0, .rdDone 1]

theorem relay_once : run [.reading, .out, .want] relay = some [.reading, .out, .want] := by decide

theorem run_append (s : St) (a b : List Act) : run s (a ++ b) = (run s a).bind fun s' => run s' b := by
  induction a generalizing s with
  | nil => simp [run]
  | cons x a ih =>
    simp only [List.cons_append, run]
    cases step s x with
    | none => simp
    | some s' => simp [ih]

theorem relay_many (k : Nat) : run [.reading, .out, .want] (List.replicate k relay).flatten = some [.reading, .out, .want] := by
  induction k with
  | zero => simp [run]
  | succ k ih => simp [List.replicate_succ, run_append, relay_once, ih]

/-- In the relay the writer never has the lock. -/
theorem relay_pre (a b : List Act) (h : a ++ b = relay) : ∃ s, run [.reading, .out, .want] a = some s ∧ s[2]? ≠ some .writing := by
  have : a = relay.take a.length := by rw [← h]; simp
  have hl : a.length ≤ 8 := by
    have := congrArg List.length h; simp [relay] at this; omega
  rw [this]
  generalize a.length = n at hl
  clear this h
  rcases n with _|_|_|_|_|_|_|_|_|n <;> first | omega | (refine ⟨_, rfl, ?_⟩; decide)

theorem prefix_flatten (k : Nat) (pre post : List Act) (h : pre ++ post = (List.replicate k relay).flatten) :
    ∃ s, run [.reading, .out, .want] pre = some s ∧ s[2]? ≠ some .writing := by
  induction k generalizing pre with
  | zero => simp at h; obtain ⟨rfl, rfl⟩ := h; exact ⟨_, rfl, by decide⟩
  | succ k ih =>
    rw [List.replicate_succ, List.flatten_cons] at h
    rcases List.append_eq_append_iff.1 h with ⟨c, h1, h2⟩ | ⟨c, h1, h2⟩
    · exact relay_pre pre c h1.symm
    · subst h1
      obtain ⟨s, hs, hn⟩ := ih c h2.symm
      exact ⟨s, by simp [run_append, relay_once, hs], hn⟩

/-- Every reader comes and goes in every round and the writer goes through its whole loop in each, and however many rounds there are it
has not had the lock. -/
theorem C232_starves (k : Nat) :
    run (init 3) [.rd 0, .wr 2] = some [.reading, .out, .want] ∧
    run [.reading, .out, .want] (List.replicate k relay).flatten = some [.reading, .out, .want] ∧
    ∀ pre post, pre ++ post = (List.replicate k relay).flatten →
      ∃ s, run [.reading, .out, .want] pre = some s ∧ s[2]? ≠ some .writing :=
  ⟨by decide, relay_many k, fun pre post h => prefix_flatten k pre post h⟩

theorem C232_fails : ¬ WriterGetsIn := by
  intro h
  obtain ⟨B, hB⟩ := h 3
  have hw : ∀ r, r ∈ List.replicate B relay → r = relay := fun r hr => (List.mem_replicate.1 hr).2
  obtain ⟨pre, post, hp, s1, hs, hwr⟩ := hB 2 _ _ [.rd 0, .wr 2] (List.replicate B relay) (by decide : run (init 3) [.rd 0, .wr 2] = some [.reading, .out, .want])
    (by decide) (relay_many B)
    (by
      intro r hr; rw [hw r hr]
      refine ⟨by decide, ?_⟩
      intro u hu
      rcases u with _|_|_|u
      · decide
      · decide
      · decide
      · omega)
    (by
      intro r hr u hu; rw [hw r hr] at hu ⊢
      simp only [relay, List.mem_cons, Act.rd.injEq, List.not_mem_nil, reduceCtorEq, or_false, false_or] at hu
      rcases hu with rfl | rfl <;> decide)
    (by
      intro u hu
      constructor
      · intro hm
        obtain ⟨r, hr, hm⟩ := List.mem_flatten.1 hm
        rw [hw r hr] at hm
        simp [relay] at hm
      · intro hm
        obtain ⟨r, hr, hm⟩ := List.mem_flatten.1 hm
        rw [hw r hr] at hm
        simp [relay] at hm
        exact hu hm)
    (by simp)
  obtain ⟨s, hs', hn⟩ := prefix_flatten B pre post hp
  rw [hs] at hs'
  simp at hs'
  subst hs'
  exact hn hwr

/-! ## What holds -/

/-- The work before a thread in `k_rwlock_wrlock` until it has tried the lock again. -/
def weight : Pc → Nat
  | .want => 1
  | .sleep => 2
  | .failed => 3
  | _ => 0

/-- The work of all. -/
def work (s : St) : Nat := (s.map weight).sum

theorem work_set (s : St) (t : Nat) (x y : Pc) (h : s[t]? = some x) : work (s.set t y) + weight x = work s + weight y := by
  induction s generalizing t with
  | nil => simp at h
  | cons a s ih =>
    cases t with
    | zero => simp at h; subst h; simp [work]; omega
    | succ t =>
      simp at h
      have := ih t h
      simp only [work, List.set_cons_succ, List.map_cons, List.sum_cons] at this ⊢
      omega

theorem mem_set {s : St} {t : Nat} {x y : Pc} (h : x ∈ s.set t y) : x = y ∨ x ∈ s := by
  rcases List.mem_or_eq_of_mem_set h with h | h
  · exact Or.inr h
  · exact Or.inl h

/-- With no reader and no writer in, a step of a thread in `k_rwlock_wrlock` brings it in or nearer. -/
theorem go_step (s s' : St) (t : Nat) (h : step s (.go t) = some s') (hr : .reading ∉ s) (hw : .writing ∉ s) :
    s'[t]? = some .writing ∨ (.reading ∉ s' ∧ .writing ∉ s' ∧ work s' + 1 = work s) := by
  simp only [step] at h
  have key : ∀ x y, s[t]? = some x → y ≠ .reading → y ≠ .writing → weight y + 1 = weight x →
      .reading ∉ s.set t y ∧ .writing ∉ s.set t y ∧ work (s.set t y) + 1 = work s := by
    intro x y hx h1 h2 h3
    refine ⟨fun hm => ?_, fun hm => ?_, ?_⟩
    · rcases mem_set hm with h | h
      · exact h1 h.symm
      · exact hr h
    · rcases mem_set hm with h | h
      · exact h2 h.symm
      · exact hw h
    · have := work_set s t x y hx
      omega
  split at h
  · rename_i hx
    split at h
    · simp at h
    · simp at h; subst h; right; exact key _ _ hx (by simp) (by simp) rfl
  · rename_i hx
    simp [hr, hw] at h
    subst h
    left
    have := (List.getElem?_eq_some_iff.1 hx).1
    simp [this]
  · rename_i hx
    simp at h; subst h; right; exact key _ _ hx (by simp) (by simp) rfl
  · rename_i hx
    simp at h; subst h; right; exact key _ _ hx (by simp) (by simp) rfl
  · simp at h

/-- Once no reader is in and none comes, the threads that want to write can go on, and after as many steps as they have work one of them
is in. -/
theorem C232_partial (s : St) (hr : .reading ∉ s) (hw : .writing ∉ s) :
    ((∃ x ∈ s, waiting x = true) → ∃ t s', step s (.go t) = some s') ∧
    ∀ as s', run s as = some s' → (∀ a ∈ as, ∃ t, a = .go t) → work s < as.length →
      ∃ pre t post s1, as = pre ++ .go t :: post ∧ run s (pre ++ [.go t]) = some s1 ∧ s1[t]? = some .writing ∧ pre.length ≤ work s := by
  constructor
  · rintro ⟨x, hx, hwx⟩
    by_cases hm : ∃ y ∈ s, y = .try ∨ y = .failed ∨ y = .sleep
    · obtain ⟨y, hy, hh⟩ := hm
      obtain ⟨t, ht⟩ := List.mem_iff_getElem?.1 hy
      refine ⟨t, ?_⟩
      simp only [step, ht]
      rcases hh with rfl | rfl | rfl
      · simp [hr, hw]
      · simp
      · simp
    · have hnone : s.any hasMutex = false := by
        rw [List.any_eq_false]
        intro y hy
        cases y <;> simp [hasMutex]
        · exact hm ⟨_, hy, by simp⟩
        · exact hm ⟨_, hy, by simp⟩
        · exact hw hy
      have hxw : x = .want := by
        cases x <;> simp [waiting] at hwx
        · rfl
        · exact absurd ⟨_, hx, by simp⟩ hm
        · exact absurd ⟨_, hx, by simp⟩ hm
        · exact absurd ⟨_, hx, by simp⟩ hm
      subst hxw
      obtain ⟨t, ht⟩ := List.mem_iff_getElem?.1 hx
      exact ⟨t, by simp [step, ht, hnone]⟩
  · intro as
    induction as generalizing s with
    | nil => intro s' _ _ hl; simp at hl
    | cons a as ih =>
      intro s' h ha hl
      obtain ⟨t, rfl⟩ := ha a (by simp)
      simp only [run] at h
      cases hs : step s (.go t) with
      | none => simp [hs] at h
      | some s2 =>
        simp only [hs] at h
        rcases go_step s s2 t hs hr hw with hin | ⟨h1, h2, h3⟩
        · exact ⟨[], t, as, s2, rfl, by simp [run, hs], hin, by simp⟩
        · obtain ⟨pre, u, post, s3, e1, e2, e3, e4⟩ := ih s2 h1 h2 s' h (fun a h => ha a (List.mem_cons_of_mem _ h))
            (by simp at hl; omega)
          refine ⟨.go t :: pre, u, post, s3, by simp [e1], by simp [run, hs, e2], e3, by simp; omega⟩

/-- While a reader is in, no thread comes in to write, whoever makes a step. -/
theorem C232_kept_out (s s' : St) (a : Act) (h : step s a = some s') (hr : .reading ∈ s) (hw : .writing ∉ s) : .writing ∉ s' := by
  intro hm
  cases a with
  | rd t =>
    simp only [step] at h; split at h <;> simp at h
    subst h; rcases mem_set hm with h | h
    · simp at h
    · exact hw h
  | rdDone t =>
    simp only [step] at h; split at h <;> simp at h
    subst h; rcases mem_set hm with h | h
    · simp at h
    · exact hw h
  | wr t =>
    simp only [step] at h; split at h <;> simp at h
    subst h; rcases mem_set hm with h | h
    · simp at h
    · exact hw h
  | wrDone t =>
    simp only [step] at h; split at h <;> simp at h
    subst h; rcases mem_set hm with h | h
    · simp at h
    · exact hw h
  | go t =>
    simp only [step] at h
    split at h
    · split at h <;> simp at h
      subst h; rcases mem_set hm with h | h
      · simp at h
      · exact hw h
    · simp [hr] at h
      subst h; rcases mem_set hm with h | h
      · simp at h
      · exact hw h
    · simp at h; subst h; rcases mem_set hm with h | h
      · simp at h
      · exact hw h
    · simp at h; subst h; rcases mem_set hm with h | h
      · simp at h
      · exact hw h
    · simp at h

/-- The other direction of the wait is short: readers are not held up by threads that only wait for the write lock, nor by the mutex. -/
theorem C232_readers (s : St) (t : Nat) (ht : s[t]? = some .out) (hw : .writing ∉ s) :
    step s (.rd t) = some (s.set t .reading) := by
  simp [step, ht, hw]

/-- Who has the write lock has it alone. -/
def Alone (s : St) : Prop := ∀ (i j : Nat), s[i]? = some .writing → s[j]? ≠ some .reading ∧ (s[j]? = some .writing → i = j)

theorem alone_set {s : St} {t : Nat} {y : Pc} (h : Alone s) (h1 : y = .writing → .reading ∉ s ∧ .writing ∉ s)
    (h2 : y = .reading → .writing ∉ s) : Alone (s.set t y) := by
  have hm : ∀ (k : Nat) (p : Pc), (s.set t y)[k]? = some p → (k = t ∧ p = y) ∨ (k ≠ t ∧ s[k]? = some p) := by
    intro k p hk
    by_cases hkt : k = t
    · subst hkt
      have hlen := (List.getElem?_eq_some_iff.1 hk).1
      simp at hlen
      simp [hlen] at hk
      exact .inl ⟨rfl, hk.symm⟩
    · rw [List.getElem?_set_ne (Ne.symm hkt)] at hk
      exact .inr ⟨hkt, hk⟩
  intro i j hi
  constructor
  · intro hj
    rcases hm i _ hi with ⟨rfl, hy⟩ | ⟨hne, hi'⟩ <;> rcases hm j _ hj with ⟨rfl, hy'⟩ | ⟨hne', hj'⟩
    · rw [← hy'] at hy; simp at hy
    · exact (h1 hy.symm).1 (List.mem_of_getElem? hj')
    · exact h2 hy'.symm (List.mem_of_getElem? hi')
    · exact (h i j hi').1 hj'
  · intro hj
    rcases hm i _ hi with ⟨rfl, hy⟩ | ⟨hne, hi'⟩ <;> rcases hm j _ hj with ⟨rfl, hy'⟩ | ⟨hne', hj'⟩
    · rfl
    · exact absurd (List.mem_of_getElem? hj') (h1 hy.symm).2
    · exact absurd (List.mem_of_getElem? hi') (h1 hy'.symm).2
    · exact (h i j hi').2 hj'

theorem alone_step (s s' : St) (a : Act) (hi : Alone s) (h : step s a = some s') : Alone s' := by
  cases a with
  | rd t =>
    simp only [step] at h; split at h <;> simp at h
    rename_i hc; subst h; exact alone_set hi (by simp) (fun _ => hc.2)
  | rdDone t =>
    simp only [step] at h; split at h <;> simp at h
    subst h; exact alone_set hi (by simp) (by simp)
  | wr t =>
    simp only [step] at h; split at h <;> simp at h
    subst h; exact alone_set hi (by simp) (by simp)
  | wrDone t =>
    simp only [step] at h; split at h <;> simp at h
    subst h; exact alone_set hi (by simp) (by simp)
  | go t =>
    simp only [step] at h
    split at h
    · split at h <;> simp at h
      subst h; exact alone_set hi (by simp) (by simp)
    · split at h <;> rename_i hc <;> simp at h <;> subst h
      · exact alone_set hi (by simp) (by simp)
      · exact alone_set hi (fun _ => ⟨fun hm => hc (.inl hm), fun hm => hc (.inr hm)⟩) (by simp)
    · simp at h; subst h; exact alone_set hi (by simp) (by simp)
    · simp at h; subst h; exact alone_set hi (by simp) (by simp)
    · simp at h

/-- In every history the writer has the lock alone. -/
theorem C232_alone (n : Nat) (as : List Act) (s : St) (h : run (init n) as = some s) : Alone s := by
  have key : ∀ (as : List Act) (s s' : St), Alone s → run s as = some s' → Alone s' := by
    intro as
    induction as with
    | nil => intro s s' hi h; simp [run] at h; subst h; exact hi
    | cons a as ih =>
      intro s s' hi h
      simp only [run] at h
      cases hs : step s a with
      | none => simp [hs] at h
      | some s1 => simp only [hs] at h; exact ih s1 s' (alone_step s s1 a hi hs) h
  refine key as _ s ?_ h
  intro i j hi
  have := List.mem_of_getElem? hi
  simp [init] at this

/-- A thread that waits for the write lock waits on or has it: the call does not return without, and nobody else takes it out. A thread
that has a lock keeps it until it gives it back itself. -/
theorem C232_stays (s s' : St) (a : Act) (t : Nat) (p : Pc) (h : step s a = some s') (hp : s[t]? = some p) :
    (waiting p = true → ∃ p', s'[t]? = some p' ∧ (waiting p' = true ∨ p' = .writing)) ∧
    (p = .writing → s'[t]? = some .writing ∨ a = .wrDone t) ∧ (p = .reading → s'[t]? = some .reading ∨ a = .rdDone t) := by
  have hlen := (List.getElem?_eq_some_iff.1 hp).1
  have key : ∀ (u : Nat) (x y : Pc), s[u]? = some x → s' = s.set u y → (waiting x = true → waiting y = true ∨ y = .writing) →
      (x = .writing → a = .wrDone u) → (x = .reading → a = .rdDone u) →
      (waiting p = true → ∃ p', s'[t]? = some p' ∧ (waiting p' = true ∨ p' = .writing)) ∧
      (p = .writing → s'[t]? = some .writing ∨ a = .wrDone t) ∧ (p = .reading → s'[t]? = some .reading ∨ a = .rdDone t) := by
    intro u x y hx he h1 h2 h3
    by_cases hu : u = t
    · subst hu
      rw [hp] at hx; simp at hx; subst hx
      subst he
      exact ⟨fun hw => ⟨y, by simp [hlen], h1 hw⟩, fun hw => .inr (h2 hw), fun hw => .inr (h3 hw)⟩
    · subst he
      rw [List.getElem?_set_ne hu, hp]
      exact ⟨fun hw => ⟨p, rfl, .inl hw⟩, fun hw => .inl (by rw [hw]), fun hw => .inl (by rw [hw])⟩
  cases a with
  | rd u =>
    simp only [step] at h; split at h <;> simp at h
    rename_i hc; exact key u _ _ hc.1 h.symm (by simp [waiting]) (by simp) (by simp)
  | rdDone u =>
    simp only [step] at h; split at h <;> simp at h
    rename_i hc; exact key u _ _ hc h.symm (by simp [waiting]) (by simp) (by simp)
  | wr u =>
    simp only [step] at h; split at h <;> simp at h
    rename_i hc; exact key u _ _ hc h.symm (by simp [waiting]) (by simp) (by simp)
  | wrDone u =>
    simp only [step] at h; split at h <;> simp at h
    rename_i hc; exact key u _ _ hc h.symm (by simp [waiting]) (by simp) (by simp)
  | go u =>
    simp only [step] at h
    split at h
    · rename_i hc
      split at h <;> simp at h
      exact key u _ _ hc h.symm (by simp [waiting]) (by simp) (by simp)
    · rename_i hc
      split at h <;> simp at h
      · exact key u _ _ hc h.symm (by simp [waiting]) (by simp) (by simp)
      · exact key u _ _ hc h.symm (by simp) (by simp) (by simp)
    · rename_i hc
      simp at h; exact key u _ _ hc h.symm (by simp [waiting]) (by simp) (by simp)
    · rename_i hc
      simp at h; exact key u _ _ hc h.symm (by simp [waiting]) (by simp) (by simp)
    · simp at h

/-- Two writers, one of them asleep, and a thread outside: after two steps one is in. -/
example : work [.want, .sleep, .out] = 3 ∧ (.reading : Pc) ∉ [Pc.want, .sleep, .out] ∧
    run [.want, .sleep, .out] [.go 0, .go 0] = some [.writing, .sleep, .out] ∧
    run [.want, .sleep, .out] [.go 1, .go 1, .go 0, .go 1] = none ∧
    run [.want, .sleep, .out] [.go 1, .go 1, .go 1] = some [.want, .writing, .out] := by decide

/-- The writer has the mutex while it writes and gives both back. -/
example : run [.writing, .want] [.go 1] = none ∧ run [.writing, .want] [.wrDone 0, .go 1, .go 1] = some [.out, .writing] ∧
    run [.out, .writing] [.rd 0] = none ∧ run [.reading, .writing] [.rdDone 0] = some [.out, .writing] := by decide

end Verif.RwWait
