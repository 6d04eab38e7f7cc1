import Verif.Errno
/-! # C110: aosl_errno belongs to its thread, and its memory is released -/

namespace Verif.Errno

/-- Thread `t` has block `b`, in its thread-local value or on the way there. -/
inductive Has (s : St) (t b : Nat) : Prop
  | tls (h : s.tls t = some b)
  | alloc (h : s.pcs[t]? = some (.alloc b))
  | read (n : Option Nat) (h : s.pcs[t]? = some (.read b n))
  | added (h : s.pcs[t]? = some (.added b))

/-- The forward links lead from newer nodes to older ones. -/
def Linked (next : Nat → Option Nat) : List Nat → Prop
  | [] => True
  | b :: l => (∀ c, next b = some c → c ∈ l) ∧ Linked next l

structure Inv (s : St) (pub : List Nat) : Prop where
  lt : ∀ t b, Has s t b → b < s.fresh
  one : ∀ t t' b, Has s t b → Has s t' b → t = t'
  idle : ∀ t b, s.tls t = some b → s.pcs[t]? = some .idle
  nodup : pub.Nodup
  publt : ∀ b ∈ pub, b < s.fresh
  head : ∀ b, s.head = some b → b ∈ pub
  reads : ∀ (t b c : Nat), s.pcs[t]? = some (.read b (some c)) → c ∈ pub
  unpub : ∀ (t b : Nat), b ∈ pub → s.pcs[t]? ≠ some (.alloc b) ∧ ∀ n, s.pcs[t]? ≠ some (.read b n)
  linked : Linked s.next pub

theorem get_set {l : List Pc} {i j : Nat} {o o' a : Pc} (h : l[i]? = some o) (hj : (l.set i a)[j]? = some o') :
    (j = i ∧ o' = a) ∨ (j ≠ i ∧ l[j]? = some o') := by
  by_cases e : i = j
  · subst e
    rw [List.getElem?_set_self (List.getElem?_eq_some_iff.1 h).1] at hj
    exact Or.inl ⟨rfl, (Option.some.inj hj).symm⟩
  · rw [List.getElem?_set_ne e] at hj
    exact Or.inr ⟨fun h => e h.symm, hj⟩

theorem linked_upd {next : Nat → Option Nat} {b : Nat} {n : Option Nat} : ∀ {l : List Nat}, b ∉ l → Linked next l → Linked (upd next b n) l := by
  intro l
  induction l with
  | nil => intro _ _; trivial
  | cons c l ih =>
    intro hb h
    refine ⟨fun d hd => ?_, ih (fun hm => hb (List.mem_cons_of_mem _ hm)) h.2⟩
    have : c ≠ b := fun e => hb (by simp [e])
    simp only [upd, if_neg this] at hd
    exact h.1 d hd

/-- The published nodes after a step. -/
def pubStep (s : St) (pub : List Nat) : Op → List Nat
  | .go t => match s.pcs[t]? with
    | some (.read b _) => b :: pub
    | _ => pub
  | _ => pub

/-- One step keeps the invariant; nodes are only added to the published ones. -/
theorem step_inv (s : St) (op : Op) (pub : List Nat) (hi : Inv s pub) : Inv (step s op) (pubStep s pub op) := by
  cases op with
  | enter t =>
    simp only [step]
    split
    case h_2 => exact hi
    case h_1 hp =>
      split
      · exact hi
      · rename_i ht
        show Inv _ pub
        have key : ∀ t' b, Has { s with fresh := s.fresh + 1, pcs := s.pcs.set t (.alloc s.fresh) } t' b → (t' = t ∧ b = s.fresh) ∨ (t' ≠ t ∧ Has s t' b) := by
          intro t' b h
          cases h with
          | tls h =>
            refine Or.inr ⟨?_, .tls h⟩
            intro e; subst e
            simp only at h; rw [ht] at h; cases h
          | alloc h =>
            rcases get_set hp h with ⟨e, e2⟩ | ⟨e, h⟩
            · cases e2; exact Or.inl ⟨e, rfl⟩
            · exact Or.inr ⟨e, .alloc h⟩
          | read n h =>
            rcases get_set hp h with ⟨e, e2⟩ | ⟨e, h⟩
            · cases e2
            · exact Or.inr ⟨e, .read n h⟩
          | added h =>
            rcases get_set hp h with ⟨e, e2⟩ | ⟨e, h⟩
            · cases e2
            · exact Or.inr ⟨e, .added h⟩
        constructor
        · intro t' b h
          rcases key t' b h with ⟨-, e⟩ | ⟨-, h⟩
          · simp only; omega
          · have := hi.lt t' b h; simp only; omega
        · intro t1 t2 b h1 h2
          rcases key t1 b h1 with ⟨e1, e⟩ | ⟨-, h1⟩
          · rcases key t2 b h2 with ⟨e2, -⟩ | ⟨-, h2⟩
            · rw [e1, e2]
            · have := hi.lt t2 b h2; omega
          · rcases key t2 b h2 with ⟨e2, e⟩ | ⟨-, h2⟩
            · have := hi.lt t1 b h1; omega
            · exact hi.one t1 t2 b h1 h2
        · intro t' b h
          have hne : t ≠ t' := by
            intro e; subst e; simp only at h; rw [ht] at h; cases h
          simp only; rw [List.getElem?_set_ne hne]
          exact hi.idle t' b h
        · exact hi.nodup
        · intro b hb; have := hi.publt b hb; simp only; omega
        · exact hi.head
        · intro t' b c h
          rcases get_set hp h with ⟨-, e2⟩ | ⟨-, h⟩
          · cases e2
          · exact hi.reads t' b c h
        · intro t' b hb
          refine ⟨fun h => ?_, fun n h => ?_⟩
          · rcases get_set hp h with ⟨-, e2⟩ | ⟨-, h⟩
            · cases e2; have := hi.publt _ hb; omega
            · exact (hi.unpub t' b hb).1 h
          · rcases get_set hp h with ⟨-, e2⟩ | ⟨-, h⟩
            · cases e2
            · exact (hi.unpub t' b hb).2 n h
        · exact hi.linked
  | go t =>
    simp only [step]
    split
    · rename_i b hp
      rw [show pubStep s pub (.go t) = pub by simp [pubStep, hp]]
      have key : ∀ t' b', Has { s with pcs := s.pcs.set t (.read b s.head) } t' b' → Has s t' b' := by
        intro t' b' h
        cases h with
        | tls h => exact .tls h
        | alloc h =>
          rcases get_set hp h with ⟨e, e2⟩ | ⟨e, h⟩
          · cases e2
          · exact .alloc h
        | read n h =>
          rcases get_set hp h with ⟨e, e2⟩ | ⟨e, h⟩
          · cases e2; subst e; exact .alloc hp
          · exact .read n h
        | added h =>
          rcases get_set hp h with ⟨e, e2⟩ | ⟨e, h⟩
          · cases e2
          · exact .added h
      constructor
      · exact fun t' b' h => hi.lt t' b' (key t' b' h)
      · exact fun t1 t2 b' h1 h2 => hi.one t1 t2 b' (key _ _ h1) (key _ _ h2)
      · intro t' b' h
        have hd := hi.idle t' b' h
        have hne : t ≠ t' := by intro e; subst e; rw [hp] at hd; cases hd
        simp only; rw [List.getElem?_set_ne hne]; exact hd
      · exact hi.nodup
      · exact hi.publt
      · exact hi.head
      · intro t' b' c h
        rcases get_set hp h with ⟨-, e2⟩ | ⟨-, h⟩
        · simp only [Pc.read.injEq] at e2
          exact hi.head c e2.2.symm
        · exact hi.reads t' b' c h
      · intro t' b' hb
        refine ⟨fun h => ?_, fun n h => ?_⟩
        · rcases get_set hp h with ⟨-, e2⟩ | ⟨-, h⟩
          · cases e2
          · exact (hi.unpub t' b' hb).1 h
        · rcases get_set hp h with ⟨e, e2⟩ | ⟨-, h⟩
          · cases e2; exact (hi.unpub t _ hb).1 hp
          · exact (hi.unpub t' b' hb).2 n h
      · exact hi.linked
    · rename_i b n hp
      rw [show pubStep s pub (.go t) = b :: pub by simp [pubStep, hp]]
      have hbp : b ∉ pub := fun h => (hi.unpub t b h).2 n hp
      have key : ∀ t' b', Has { s with next := upd s.next b n, head := some b, pcs := s.pcs.set t (.added b) } t' b' → Has s t' b' := by
        intro t' b' h
        cases h with
        | tls h => exact .tls h
        | alloc h =>
          rcases get_set hp h with ⟨e, e2⟩ | ⟨e, h⟩
          · cases e2
          · exact .alloc h
        | read n h =>
          rcases get_set hp h with ⟨e, e2⟩ | ⟨e, h⟩
          · cases e2
          · exact .read n h
        | added h =>
          rcases get_set hp h with ⟨e, e2⟩ | ⟨e, h⟩
          · cases e2; subst e; exact .read n hp
          · exact .added h
      constructor
      · exact fun t' b' h => hi.lt t' b' (key t' b' h)
      · exact fun t1 t2 b' h1 h2 => hi.one t1 t2 b' (key _ _ h1) (key _ _ h2)
      · intro t' b' h
        have hd := hi.idle t' b' h
        have hne : t ≠ t' := by intro e; subst e; rw [hp] at hd; cases hd
        simp only; rw [List.getElem?_set_ne hne]; exact hd
      · exact List.nodup_cons.2 ⟨hbp, hi.nodup⟩
      · intro b' hb'
        rcases List.mem_cons.1 hb' with e | h
        · subst e; exact hi.lt t b' (.read n hp)
        · exact hi.publt b' h
      · intro b' h
        simp only [Option.some.injEq] at h; subst h; simp
      · intro t' b' c h
        rcases get_set hp h with ⟨-, e2⟩ | ⟨-, h⟩
        · cases e2
        · exact List.mem_cons_of_mem _ (hi.reads t' b' c h)
      · intro t' b' hb
        have hne : ∀ t', Has s t' b → t' = t := fun t' h => hi.one t' t b h (.read n hp)
        refine ⟨fun h => ?_, fun m h => ?_⟩
        · rcases get_set hp h with ⟨-, e2⟩ | ⟨h0, h⟩
          · cases e2
          · rcases List.mem_cons.1 hb with e | hb
            · rw [e] at h; exact h0 (hne t' (.alloc h))
            · exact (hi.unpub t' b' hb).1 h
        · rcases get_set hp h with ⟨-, e2⟩ | ⟨h0, h⟩
          · cases e2
          · rcases List.mem_cons.1 hb with e | hb
            · rw [e] at h; exact h0 (hne t' (.read m h))
            · exact (hi.unpub t' b' hb).2 m h
      · refine ⟨fun c hc => ?_, linked_upd hbp hi.linked⟩
        simp only [upd, if_pos] at hc
        subst hc
        exact hi.reads t b c hp
    · rename_i b hp
      rw [show pubStep s pub (.go t) = pub by simp [pubStep, hp]]
      have key : ∀ t' b', Has { s with tls := upd s.tls t (some b), val := upd s.val b (some 0), pcs := s.pcs.set t .idle } t' b' → Has s t' b' := by
        intro t' b' h
        cases h with
        | tls h =>
          simp only [upd] at h
          split at h
          · rename_i e; subst e; cases h; exact .added hp
          · exact .tls h
        | alloc h =>
          rcases get_set hp h with ⟨e, e2⟩ | ⟨e, h⟩
          · cases e2
          · exact .alloc h
        | read n h =>
          rcases get_set hp h with ⟨e, e2⟩ | ⟨e, h⟩
          · cases e2
          · exact .read n h
        | added h =>
          rcases get_set hp h with ⟨e, e2⟩ | ⟨e, h⟩
          · cases e2
          · exact .added h
      constructor
      · exact fun t' b' h => hi.lt t' b' (key t' b' h)
      · exact fun t1 t2 b' h1 h2 => hi.one t1 t2 b' (key _ _ h1) (key _ _ h2)
      · intro t' b' h
        by_cases e : t' = t
        · subst e; exact List.getElem?_set_self (List.getElem?_eq_some_iff.1 hp).1
        · simp only [upd, if_neg e] at h
          simp only; rw [List.getElem?_set_ne (fun h => e h.symm)]; exact hi.idle t' b' h
      · exact hi.nodup
      · exact hi.publt
      · exact hi.head
      · intro t' b' c h
        rcases get_set hp h with ⟨-, e2⟩ | ⟨-, h⟩
        · cases e2
        · exact hi.reads t' b' c h
      · intro t' b' hb
        refine ⟨fun h => ?_, fun n h => ?_⟩
        · rcases get_set hp h with ⟨-, e2⟩ | ⟨-, h⟩
          · cases e2
          · exact (hi.unpub t' b' hb).1 h
        · rcases get_set hp h with ⟨e, e2⟩ | ⟨-, h⟩
          · cases e2
          · exact (hi.unpub t' b' hb).2 n h
      · exact hi.linked
    · rename_i h1 h2 h3
      have : pubStep s pub (.go t) = pub := by
        simp only [pubStep]
      rw [this]; exact hi
  | store t v =>
    simp only [step]
    split
    case h_2 => exact hi
    case h_1 hp =>
      split
      · rename_i b ht
        show Inv _ pub
        have key : ∀ t' b', Has { s with val := upd s.val b (some v) } t' b' → Has s t' b' := by
          intro t' b' h
          cases h with
          | tls h => exact .tls h
          | alloc h => exact .alloc h
          | read n h => exact .read n h
          | added h => exact .added h
        exact ⟨fun t' b' h => hi.lt t' b' (key t' b' h), fun t1 t2 b' h1 h2 => hi.one t1 t2 b' (key _ _ h1) (key _ _ h2), hi.idle, hi.nodup, hi.publt, hi.head, hi.reads, hi.unpub, hi.linked⟩
      · exact hi

theorem get_init {n t : Nat} {p : Pc} (h : (init n).pcs[t]? = some p) : p = .idle :=
  (List.mem_replicate.1 (List.mem_of_getElem? h)).2

theorem inv_init (n : Nat) : Inv (init n) [] := by
  have key : ∀ t b, ¬ Has (init n) t b := by
    intro t b h
    cases h with
    | tls h => simp [init] at h
    | alloc h => cases get_init h
    | read m h => cases get_init h
    | added h => cases get_init h
  refine ⟨fun t b h => absurd h (key t b), fun t t' b h => absurd h (key t b), by simp [init], by simp, by simp, by simp [init], ?_, by simp, trivial⟩
  intro t b c h; cases get_init h

theorem run_inv (ops : List Op) : ∀ s pub, Inv s pub → ∃ pub', Inv (run s ops) pub' := by
  induction ops with
  | nil => intro s pub h; exact ⟨pub, h⟩
  | cons op ops ih =>
    intro s pub h
    exact ih _ _ (step_inv s op pub h)

/-! ## The values -/

theorem step_val (s : St) (op : Op) (pub : List Nat) (hi : Inv s pub) (hist : List (Nat × Int)) (h : ∀ t, errno s t = some (spec t hist)) (t : Nat) :
    errno (step s op) t = some (spec t (stores s [op] ++ hist)) := by
  cases op with
  | enter u =>
    simp only [step, stores, List.nil_append]
    split
    · split
      · exact h t
      · exact h t
    · exact h t
  | go u =>
    simp only [step, stores, List.nil_append]
    split
    · exact h t
    · exact h t
    · rename_i b hp
      have hnone : s.tls u = none := by
        cases ht : s.tls u with
        | none => rfl
        | some c => have := hi.idle u c ht; rw [hp] at this; cases this
      have h' := h t
      simp only [errno, upd] at h' ⊢
      by_cases e : t = u
      · subst e
        rw [hnone] at h'
        simp only [if_pos]; exact h'
      · rw [if_neg e]
        cases ht : s.tls t with
        | none => rw [ht] at h'; exact h'
        | some c =>
          rw [ht] at h'
          simp only
          have : c ≠ b := fun ec => e (hi.one t u b (ec ▸ .tls ht) (.added hp))
          rw [if_neg this]; exact h'
    · exact h t
  | store u v =>
    simp only [step, stores, List.nil_append]
    have h' := h t
    split
    · rename_i hp
      split
      · rename_i b hb
        rw [if_pos ⟨hp, by simp [hb]⟩]
        simp only [errno, upd, List.cons_append, List.nil_append, spec] at h' ⊢
        by_cases e : u = t
        · subst e; rw [hb]; simp
        · rw [if_neg e]
          cases ht : s.tls t with
          | none => rw [ht] at h'; exact h'
          | some c =>
            rw [ht] at h'
            simp only
            have : c ≠ b := fun ec => e (hi.one u t b (.tls hb) (ec ▸ .tls ht))
            rw [if_neg this]; exact h'
      · rename_i hb
        rw [if_neg (by simp [hb])]; exact h'
    · rename_i hp
      rw [if_neg (fun hh => hp hh.1)]; exact h'

theorem run_val (ops : List Op) : ∀ s pub hist, Inv s pub → (∀ t, errno s t = some (spec t hist)) → ∀ t, errno (run s ops) t = some (spec t (stores s ops ++ hist)) := by
  induction ops with
  | nil => intro s pub hist _ h t; exact h t
  | cons op ops ih =>
    intro s pub hist hi h t
    have := ih (step s op) _ (stores s [op] ++ hist) (step_inv s op pub hi) (step_val s op pub hi hist h) t
    simp only [stores, List.nil_append] at this ⊢
    rw [List.append_assoc]; exact this

/-- **C110**, privacy: for every interleaving of any number of threads, `aosl_errno` in a thread is the value that this thread stored last, and 0 if it has stored none. -/
theorem C110_private (n : Nat) (ops : List Op) (t : Nat) : errno (run (init n) ops) t = some (spec t (stores (init n) ops)) := by
  have := run_val ops (init n) [] [] (inv_init n) (fun t => rfl) t
  simpa using this

/-! ## The memory -/

theorem linked_mem {next : Nat → Option Nat} {b c : Nat} : ∀ {l : List Nat}, Linked next l → b ∈ l → next b = some c → c ∈ l := by
  intro l
  induction l with
  | nil => intro _ h; cases h
  | cons d l ih =>
    intro hl hb hc
    rcases List.mem_cons.1 hb with e | h
    · subst e; exact List.mem_cons_of_mem _ (hl.1 c hc)
    · exact List.mem_cons_of_mem _ (ih hl.2 h hc)

/-- Following the links from a node ends after as many steps as there are nodes, and meets no node twice. -/
theorem chain_sub {next : Nat → Option Nat} : ∀ {l : List Nat} {p : Option Nat}, Linked next l → l.Nodup → (∀ b, p = some b → b ∈ l) →
    ∀ k, l.length ≤ k → (chain next k p).Sublist l ∧ chain next (k + 1) p = chain next k p := by
  intro l
  induction l with
  | nil =>
    intro p _ _ hp k _
    cases p with
    | none => cases k <;> simp [chain]
    | some b => cases hp b rfl
  | cons c l ih =>
    intro p hl hn hp k hk
    cases k with
    | zero => simp at hk
    | succ k =>
      simp only [List.length_cons] at hk
      cases p with
      | none => simp [chain]
      | some b =>
        rcases List.mem_cons.1 (hp b rfl) with e | hb
        · subst e
          obtain ⟨h1, h2⟩ := ih (p := next b) hl.2 (List.nodup_cons.1 hn).2 (fun d hd => hl.1 d hd) k (by omega)
          exact ⟨by simp only [chain]; exact h1.cons_cons b, by simp only [chain] at h2 ⊢; rw [h2]⟩
        · obtain ⟨h1, h2⟩ := ih (p := some b) hl.2 (List.nodup_cons.1 hn).2 (fun d hd => by cases hd; exact hb) (k + 1) (by omega)
          exact ⟨h1.cons c, h2⟩

theorem nodup_lt_length {n : Nat} : ∀ {l : List Nat}, l.Nodup → (∀ b ∈ l, b < n) → l.length ≤ n := by
  induction n with
  | zero =>
    intro l _ h
    cases l with
    | nil => simp
    | cons a l => exact absurd (h a (by simp)) (by omega)
  | succ n ih =>
    intro l hn h
    have h1 : (l.erase n).length ≤ n := by
      refine ih (hn.erase n) (fun b hb => ?_)
      have h2 := (hn.mem_erase_iff).1 hb
      have := h b h2.2
      have := h2.1
      omega
    have := List.length_erase (a := n) (l := l)
    split at this <;> omega

/-- **C110**, for every interleaving: releasing ends, and no block is freed twice or without having been allocated. -/
theorem C110_no_double_free (n : Nat) (ops : List Op) :
    (fini (run (init n) ops)).freed.Nodup ∧ (∀ b ∈ (fini (run (init n) ops)).freed, b < (run (init n) ops).fresh) ∧
    chain (run (init n) ops).next ((run (init n) ops).fresh + 1) (run (init n) ops).head = chain (run (init n) ops).next (run (init n) ops).fresh (run (init n) ops).head := by
  obtain ⟨pub, hi⟩ := run_inv ops (init n) [] (inv_init n)
  have hf : ∀ ops s, (run s ops).freed = s.freed := by
    intro ops
    induction ops with
    | nil => intro s; rfl
    | cons op ops ih =>
      intro s
      show (run (step s op) ops).freed = _
      rw [ih]
      cases op with
      | enter t => simp only [step]; split <;> (try split) <;> rfl
      | go t => simp only [step]; split <;> rfl
      | store t v => simp only [step]; split <;> (try split) <;> rfl
  obtain ⟨h1, h2⟩ := chain_sub hi.linked hi.nodup hi.head (run (init n) ops).fresh (nodup_lt_length hi.nodup hi.publt)
  have hfr : (fini (run (init n) ops)).freed = chain (run (init n) ops).next (run (init n) ops).fresh (run (init n) ops).head := by
    simp only [fini, hf]; rfl
  rw [hfr]
  exact ⟨h1.nodup hi.nodup, fun b hb => hi.publt b (h1.subset hb), h2⟩

/-- **C110** fails for the memory: two threads use `aosl_errno` for the first time at once, and the block of one of them is never freed. -/
theorem C110_leak : ∃ ops : List Op, (∀ p ∈ (run (init 2) ops).pcs, p = .idle) ∧ ∃ b < (run (init 2) ops).fresh, b ∉ (fini (run (init 2) ops)).freed :=
  ⟨[.enter 0, .enter 1, .go 0, .go 1, .go 0, .go 1, .go 0, .go 1], by decide +kernel, 0, by decide +kernel, by decide +kernel⟩

/-- At most one thread is between the two steps of `aosl_list_add`. -/
def OneAdder (s : St) : Prop := ∀ (t t' b b' : Nat) (n n' : Option Nat), s.pcs[t]? = some (.read b n) → s.pcs[t']? = some (.read b' n') → t = t'

/-- At every point of the history. -/
def NoRace : St → List Op → Prop
  | s, [] => OneAdder s
  | s, op :: ops => OneAdder s ∧ NoRace (step s op) ops

/-- The list has all published nodes. -/
structure Full (s : St) (pub : List Nat) : Prop where
  chain : ∀ k, pub.length ≤ k → chain s.next k s.head = pub
  reads : ∀ (t b : Nat) (n : Option Nat), s.pcs[t]? = some (.read b n) → n = s.head
  all : ∀ b < s.fresh, b ∈ pub ∨ ∃ t : Nat, s.pcs[t]? = some (.alloc b) ∨ ∃ n, s.pcs[t]? = some (.read b n)

theorem chain_upd {next : Nat → Option Nat} {b : Nat} {n : Option Nat} : ∀ (k : Nat) (p : Option Nat), b ∉ chain next k p → chain (upd next b n) k p = chain next k p := by
  intro k
  induction k with
  | zero => intro p _; simp [chain]
  | succ k ih =>
    intro p h
    cases p with
    | none => simp [chain]
    | some c =>
      simp only [chain, List.mem_cons, not_or] at h
      simp only [chain, upd, if_neg (Ne.symm h.1)]
      rw [ih (next c) h.2]

theorem step_full (s : St) (op : Op) (pub : List Nat) (hi : Inv s pub) (hf : Full s pub) (h0 : OneAdder s) : Full (step s op) (pubStep s pub op) := by
  cases op with
  | enter t =>
    simp only [step]
    split
    case h_2 => exact hf
    case h_1 hp =>
      split
      · exact hf
      · refine ⟨hf.chain, fun t' b n h => ?_, fun b hb => ?_⟩
        · rcases get_set hp h with ⟨-, e2⟩ | ⟨-, h⟩
          · cases e2
          · exact hf.reads t' b n h
        · simp only at hb ⊢
          by_cases e : b = s.fresh
          · subst e
            exact Or.inr ⟨t, Or.inl (List.getElem?_set_self (List.getElem?_eq_some_iff.1 hp).1)⟩
          · rcases hf.all b (by omega) with h | ⟨t', h⟩
            · exact Or.inl h
            · have hne : t ≠ t' := by
                intro e; subst e; rw [hp] at h
                rcases h with h | ⟨n, h⟩ <;> cases h
              refine Or.inr ⟨t', ?_⟩
              rw [List.getElem?_set_ne hne]; exact h
  | go t =>
    simp only [step]
    split
    · rename_i b hp
      rw [show pubStep s pub (.go t) = pub by simp [pubStep, hp]]
      refine ⟨hf.chain, fun t' b' n h => ?_, fun b' hb => ?_⟩
      · rcases get_set hp h with ⟨-, e2⟩ | ⟨-, h⟩
        · cases e2; rfl
        · exact hf.reads t' b' n h
      · rcases hf.all b' hb with h | ⟨t', h⟩
        · exact Or.inl h
        · by_cases e : t = t'
          · subst e
            rw [hp] at h
            rcases h with h | ⟨n, h⟩
            · cases h
              exact Or.inr ⟨t, Or.inr ⟨s.head, List.getElem?_set_self (List.getElem?_eq_some_iff.1 hp).1⟩⟩
            · cases h
          · refine Or.inr ⟨t', ?_⟩
            simp only; rw [List.getElem?_set_ne e]; exact h
    · rename_i b n hp
      rw [show pubStep s pub (.go t) = b :: pub by simp [pubStep, hp]]
      have hbp : b ∉ pub := fun h => (hi.unpub t b h).2 n hp
      refine ⟨fun k hk => ?_, fun t' b' m h => ?_, fun b' hb => ?_⟩
      · cases k with
        | zero => simp at hk
        | succ k =>
          simp only [List.length_cons] at hk
          have hc := hf.chain k (by omega)
          simp only [chain]
          have : upd s.next b n b = s.head := by simp only [upd, if_pos]; exact hf.reads t b n hp
          rw [this, chain_upd k s.head (by rw [hc]; exact hbp), hc]
      · rcases get_set hp h with ⟨-, e2⟩ | ⟨h1, h⟩
        · cases e2
        · exact absurd (h0 t' t b' b m n h hp) h1
      · rcases hf.all b' hb with h | ⟨t', h⟩
        · exact Or.inl (List.mem_cons_of_mem _ h)
        · by_cases e : t = t'
          · subst e
            rw [hp] at h
            rcases h with h | ⟨m, h⟩
            · cases h
            · cases h; exact Or.inl (by simp)
          · refine Or.inr ⟨t', ?_⟩
            simp only; rw [List.getElem?_set_ne e]; exact h
    · rename_i b hp
      rw [show pubStep s pub (.go t) = pub by simp [pubStep, hp]]
      refine ⟨hf.chain, fun t' b' n h => ?_, fun b' hb => ?_⟩
      · rcases get_set hp h with ⟨-, e2⟩ | ⟨-, h⟩
        · cases e2
        · exact hf.reads t' b' n h
      · rcases hf.all b' hb with h | ⟨t', h⟩
        · exact Or.inl h
        · have hne : t ≠ t' := by
            intro e; subst e; rw [hp] at h
            rcases h with h | ⟨n, h⟩ <;> cases h
          refine Or.inr ⟨t', ?_⟩
          simp only; rw [List.getElem?_set_ne hne]; exact h
    · rename_i h1 h2 h3
      have : pubStep s pub (.go t) = pub := by
        simp only [pubStep]
      rw [this]; exact hf
  | store t v =>
    simp only [step]
    split
    case h_2 => exact hf
    case h_1 hp =>
      split
      · exact ⟨hf.chain, hf.reads, hf.all⟩
      · exact hf

theorem run_full (ops : List Op) : ∀ s pub, Inv s pub → Full s pub → NoRace s ops → ∃ pub', Inv (run s ops) pub' ∧ Full (run s ops) pub' := by
  induction ops with
  | nil => intro s pub hi hf _; exact ⟨pub, hi, hf⟩
  | cons op ops ih =>
    intro s pub hi hf h
    exact ih _ _ (step_inv s op pub hi) (step_full s op pub hi hf h.1) h.2

/-- **C110**, the memory, if never two threads are inside `aosl_list_add` at once: when all calls have returned, releasing frees exactly the blocks allocated, each once. -/
theorem C110_freed_partial (n : Nat) (ops : List Op) (h : NoRace (init n) ops) (hd : ∀ p ∈ (run (init n) ops).pcs, p = .idle) :
    (fini (run (init n) ops)).freed.Nodup ∧ ∀ b, b ∈ (fini (run (init n) ops)).freed ↔ b < (run (init n) ops).fresh := by
  obtain ⟨h1, h2, -⟩ := C110_no_double_free n ops
  refine ⟨h1, fun b => ⟨h2 b, fun hb => ?_⟩⟩
  have hf0 : Full (init n) [] := by
    refine ⟨fun k _ => ?_, fun t b m h => ?_, fun b hb => ?_⟩
    · cases k <;> simp [chain, init]
    · cases get_init h
    · simp [init] at hb
  obtain ⟨pub, hi, hf⟩ := run_full ops (init n) [] (inv_init n) hf0 h
  have hc := hf.chain _ (nodup_lt_length hi.nodup hi.publt)
  simp only [fini, List.mem_append]
  rw [hc]
  rcases hf.all b hb with h | ⟨t, h | ⟨m, h⟩⟩
  · exact Or.inr h
  · cases hd _ (List.mem_of_getElem? h)
  · cases hd _ (List.mem_of_getElem? h)

/-! ## Non-vacuity -/

/-- Two threads whose first uses overlap, but not inside `aosl_list_add`. -/
def exOps : List Op := [.enter 0, .enter 1, .go 1, .go 1, .go 0, .go 0, .go 1, .go 0, .store 0 5, .store 1 7, .store 0 6]

example : (errno (run (init 2) exOps) 0, errno (run (init 2) exOps) 1) = (some 6, some 7) ∧ stores (init 2) exOps = [(0, 6), (1, 7), (0, 5)] ∧
    (fini (run (init 2) exOps)).freed = [0, 1] := by decide +kernel

/-- A single thread never races. -/
example : NoRace (init 1) [.enter 0, .go 0, .go 0, .go 0] ∧ (∀ p ∈ (run (init 1) [.enter 0, .go 0, .go 0, .go 0]).pcs, p = .idle) ∧ (run (init 1) [.enter 0, .go 0, .go 0, .go 0]).fresh = 1 := by
  refine ⟨?_, by decide +kernel, by decide +kernel⟩
  have key : ∀ s : St, s.pcs.length = 1 → OneAdder s := by
    intro s hs t t' b b' n n' h h'
    have := (List.getElem?_eq_some_iff.1 h).1
    have := (List.getElem?_eq_some_iff.1 h').1
    omega
  exact ⟨key _ rfl, key _ rfl, key _ rfl, key _ rfl, key _ rfl⟩

/-- A second `k_errno_fini` frees nothing. -/
theorem C110_fini_twice (s : St) : (fini (fini s)).freed = (fini s).freed := by
  have : ∀ (f : Nat → Option Nat) n, chain f n none = [] := by intro f n; cases n <;> rfl
  simp [fini, this]

end Verif.Errno
