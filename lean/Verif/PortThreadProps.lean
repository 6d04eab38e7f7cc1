import Verif.PortThread
/-! Properties C173 (threads can be started and ended over and over) and C174 (each thread has its own identity) of the ports. -/
namespace Verif.PortThread

@[simp] theorem upd_apply (f : Nat → β) (i j : Nat) (v : β) : upd f i v j = if j = i then v else f j := rfl

/-! ## windows -/
namespace Win

inductive Reach : St → Prop
  | init : Reach St.init
  | step {s s' : St} {a : Act} : Reach s → step s a = some s' → Reach s'

/-- histories without aosl_hal_thread_exit -/
inductive ReachN : St → Prop
  | init : ReachN St.init
  | step {s s' : St} {a : Act} : ReachN s → (∀ i, a ≠ .exit i) → step s a = some s' → ReachN s'

theorem ReachN.reach {s : St} (h : ReachN s) : Reach s := by
  induction h with
  | init => exact .init
  | step _ _ hs ih => exact .step ih hs

structure Inv (s : St) : Prop where
  nodup : s.list.Nodup
  mem : ∀ (i : Nat), i ∈ s.list → i < s.cnt ∧ (s.node i).reg = true ∧ (s.node i).freed = false
  listed : ∀ (i : Nat), i < s.cnt → (s.node i).reg = true → (s.node i).freed = false → i ∈ s.list
  handle : ∀ (i : Nat), i < s.cnt → (s.node i).detached = false → (s.node i).handle = true
  det : ∀ (i : Nat), i < s.cnt → (s.node i).detached = true → (s.node i).handle = false ∧ (s.node i).reg = true
  fin : ∀ (i : Nat), i < s.cnt → (s.node i).finished = (s.node i).wrapped
  free : ∀ (i : Nat), i < s.cnt → (s.node i).freed = true → (s.node i).finished = true ∧ (s.node i).detached = true
  both : ∀ (i : Nat), i < s.cnt → (s.node i).finished = true → (s.node i).detached = true → (s.node i).freed = true
  uniq : ∀ (i j : Nat), i < s.cnt → j < s.cnt → i ≠ j → ((s.node i).live = true ∨ (s.node i).handle = true) →
    ((s.node j).live = true ∨ (s.node j).handle = true) → (s.node i).tid ≠ (s.node j).tid
  order : s.list.Pairwise fun i j => (s.node i).tid = (s.node j).tid → (s.node j).live = false ∧ (s.node j).handle = false
  safe : s.bad = false

theorem lookup_mem {s : St} {t k : Nat} (h : lookup s t = some k) : k ∈ s.list ∧ (s.node k).tid = t := by
  have h1 := List.mem_of_find?_eq_some h
  have h2 := List.find?_some h
  exact ⟨h1, by simpa using h2⟩

/-- the thread that is alive, or whose handle is open, is the one found under its id -/
theorem find_self (nd : Nat → Node) (i : Nat) (hl : (nd i).live = true ∨ (nd i).handle = true) :
    ∀ (l : List Nat), i ∈ l → (l.Pairwise fun i j => (nd i).tid = (nd j).tid → (nd j).live = false ∧ (nd j).handle = false) →
      l.find? (fun j => (nd j).tid == (nd i).tid) = some i
  | [], h, _ => by simp at h
  | j :: l, h, hp => by
    rw [List.pairwise_cons] at hp
    by_cases e : j = i
    · subst e; simp
    · have hm : i ∈ l := by rcases List.mem_cons.1 h with h | h; exact absurd h.symm e; exact h
      have hne : ¬ (nd j).tid = (nd i).tid := by
        intro e2
        have := hp.1 i hm e2
        rcases hl with hl | hl <;> simp [this] at hl
      simp only [List.find?_cons, beq_iff_eq, hne]
      have : ((nd j).tid == (nd i).tid) = false := by simpa using hne
      rw [this]
      exact find_self nd i hl l hm hp.2

theorem lookup_self {s : St} (h : Inv s) {i : Nat} (hi : i ∈ s.list) (hl : (s.node i).live = true ∨ (s.node i).handle = true) :
    lookup s (s.node i).tid = some i := find_self s.node i hl s.list hi h.order

/-- changing one record keeps the order condition if its id stays and it is not brought to life -/
theorem order_upd {nd : Nat → Node} {k : Nat} {v : Node} {l : List Nat}
    (h : l.Pairwise fun i j => (nd i).tid = (nd j).tid → (nd j).live = false ∧ (nd j).handle = false)
    (ht : v.tid = (nd k).tid) (hl : (nd k).live = false → v.live = false) (hh : (nd k).handle = false → v.handle = false) :
    l.Pairwise fun i j => (upd nd k v i).tid = (upd nd k v j).tid → (upd nd k v j).live = false ∧ (upd nd k v j).handle = false := by
  have htid : ∀ j, (upd nd k v j).tid = (nd j).tid := by
    intro j; by_cases e : j = k
    · subst e; simp [ht]
    · simp [e]
  refine h.imp ?_
  intro i j hij he
  rw [htid, htid] at he
  have := hij he
  by_cases e : j = k
  · subst e; simp only [upd_apply, if_true]; exact ⟨hl this.1, hh this.2⟩
  · simp only [upd_apply, e, if_false]; exact this

theorem inv_reach {s : St} (h : Reach s) : Inv s := by
  induction h with
  | init =>
    constructor <;> simp [St.init]
  | @step s s' a _ hs ih =>
    have hI := ih
    obtain ⟨h1, h2, h3, h4, h5, h6, h7, h8, h9, h10, h11⟩ := ih
    cases a with
    | create t =>
      simp only [step] at hs
      split at hs <;> cases hs
      rename_i hg
      have hlt : ∀ i, i < s.cnt + 1 → i ≠ s.cnt → i < s.cnt := by intro i; omega
      refine ⟨h1, ?_, ?_, ?_, ?_, ?_, ?_, ?_, ?_, ?_, h11⟩
      · intro i hi
        have := h2 i hi
        have e : i ≠ s.cnt := by omega
        simp only [upd_apply, e, if_false]
        exact ⟨by omega, this.2⟩
      · intro i hi hr hf
        by_cases e : i = s.cnt
        · simp [e] at hr
        · simp only [upd_apply, e, if_false] at hr hf; exact h3 i (hlt i hi e) hr hf
      · intro i hi hd
        by_cases e : i = s.cnt
        · simp [e]
        · simp only [upd_apply, e, if_false] at hd ⊢; exact h4 i (hlt i hi e) hd
      · intro i hi hd
        by_cases e : i = s.cnt
        · simp [e] at hd
        · simp only [upd_apply, e, if_false] at hd ⊢; exact h5 i (hlt i hi e) hd
      · intro i hi
        by_cases e : i = s.cnt
        · simp [e]
        · simp only [upd_apply, e, if_false]; exact h6 i (hlt i hi e)
      · intro i hi hd
        by_cases e : i = s.cnt
        · simp [e] at hd
        · simp only [upd_apply, e, if_false] at hd ⊢; exact h7 i (hlt i hi e) hd
      · intro i hi hd he
        by_cases e : i = s.cnt
        · simp [e] at hd
        · simp only [upd_apply, e, if_false] at hd he ⊢; exact h8 i (hlt i hi e) hd he
      · intro i j hi hj hne hli hlj
        by_cases e : i = s.cnt <;> by_cases e' : j = s.cnt
        · omega
        · simp only [upd_apply, e, e', if_true, if_false] at hlj ⊢
          exact fun x => hg j (hlt j hj e') hlj x.symm
        · simp only [upd_apply, e, e', if_true, if_false] at hli ⊢
          exact hg i (hlt i hi e) hli
        · simp only [upd_apply, e, e', if_false] at hli hlj ⊢
          exact h9 i j (hlt i hi e) (hlt j hj e') hne hli hlj
      · refine List.Pairwise.imp_of_mem ?_ h10
        intro i j hi hj hij
        have ei : i ≠ s.cnt := by have := (h2 i hi).1; omega
        have ej : j ≠ s.cnt := by have := (h2 j hj).1; omega
        simp only [upd_apply, ei, ej, if_false]; exact hij
    | register i =>
      simp only [step] at hs
      split at hs
      · rename_i hg
        have hnf : (s.node i).freed = false := by
          cases hf : (s.node i).freed with
          | false => rfl
          | true =>
            have := (h5 i hg.1 (h7 i hg.1 hf).2).2
            rw [hg.2] at this; cases this
        rw [if_neg (by rw [hnf]; simp)] at hs
        cases hs
        have hnl : i ∉ s.list := fun hi => by have := (h2 i hi).2.1; rw [hg.2] at this; cases this
        have hh : (s.node i).handle = true := by
          refine h4 i hg.1 ?_
          cases hd : (s.node i).detached with
          | false => rfl
          | true => have := (h5 i hg.1 hd).2; rw [hg.2] at this; cases this
        refine ⟨?_, ?_, ?_, ?_, ?_, ?_, ?_, ?_, ?_, ?_, h11⟩
        · exact List.nodup_cons.2 ⟨hnl, h1⟩
        · intro j hj
          by_cases e : j = i
          · subst e; simp [hnf, hg.1]
          · rcases List.mem_cons.1 hj with hj | hj
            · exact absurd hj e
            · simp only [upd_apply, e, if_false]; exact h2 j hj
        · intro j hj hr hf
          by_cases e : j = i
          · simp [e]
          · simp only [upd_apply, e, if_false] at hr hf; exact List.mem_cons_of_mem _ (h3 j hj hr hf)
        · intro j hj hd
          by_cases e : j = i
          · subst e; simp [hh]
          · simp only [upd_apply, e, if_false] at hd ⊢; exact h4 j hj hd
        · intro j hj hd
          by_cases e : j = i
          · subst e; simp only [upd_apply, if_true] at hd ⊢; exact ⟨(h5 j hj hd).1, trivial⟩
          · simp only [upd_apply, e, if_false] at hd ⊢; exact h5 j hj hd
        · intro j hj
          by_cases e : j = i
          · subst e; simp only [upd_apply, if_true]; exact h6 j hj
          · simp only [upd_apply, e, if_false]; exact h6 j hj
        · intro j hj hd
          by_cases e : j = i
          · subst e; simp only [upd_apply, if_true] at hd ⊢; exact h7 j hj hd
          · simp only [upd_apply, e, if_false] at hd ⊢; exact h7 j hj hd
        · intro j hj hd he
          by_cases e : j = i
          · subst e; simp only [upd_apply, if_true] at hd he ⊢; exact h8 j hj hd he
          · simp only [upd_apply, e, if_false] at hd he ⊢; exact h8 j hj hd he
        · intro j k hj hk hne hlj hlk
          have e1 : ∀ x, (upd s.node i { s.node i with reg := true } x).tid = (s.node x).tid := by intro x; by_cases e : x = i <;> simp [e]
          have e2 : ∀ x, (upd s.node i { s.node i with reg := true } x).live = (s.node x).live := by intro x; by_cases e : x = i <;> simp [e]
          have e3 : ∀ x, (upd s.node i { s.node i with reg := true } x).handle = (s.node x).handle := by intro x; by_cases e : x = i <;> simp [e]
          simp only [e1, e2, e3] at hlj hlk ⊢
          exact h9 j k hj hk hne hlj hlk
        · rw [List.pairwise_cons]
          refine ⟨?_, order_upd h10 rfl (fun h => h) (fun h => h)⟩
          intro j hj he
          have e : j ≠ i := fun e => hnl (e ▸ hj)
          simp only [upd_apply, e, if_true, if_false] at he ⊢
          have hx : ¬ ((s.node j).live = true ∨ (s.node j).handle = true) := by
            intro hl
            exact h9 i j hg.1 (h2 j hj).1 (Ne.symm e) (.inr hh) hl he
          cases ha : (s.node j).live <;> cases hb : (s.node j).handle <;> simp [ha, hb] at hx ⊢
      · cases hs
    | detach i =>
      simp only [step] at hs
      split at hs
      · rename_i hg
        split at hs
        · cases hs; exact hI
        · rename_i k hk
          obtain ⟨hkm, -⟩ := lookup_mem hk
          obtain ⟨k1, k2, k3⟩ := h2 k hkm
          rw [if_neg (by rw [k3]; simp)] at hs
          split at hs
          · cases hs; exact hI
          · rename_i hnd
            have hnd' : (s.node k).detached = false := by simpa using hnd
            have huniq : ∀ (v : Node), v.tid = (s.node k).tid → v.live = (s.node k).live → v.handle = false →
                ∀ (i j : Nat), i < s.cnt → j < s.cnt → i ≠ j → ((upd s.node k v i).live = true ∨ (upd s.node k v i).handle = true) →
                  ((upd s.node k v j).live = true ∨ (upd s.node k v j).handle = true) → (upd s.node k v i).tid ≠ (upd s.node k v j).tid := by
              intro v e1 e2 e3 i j hi hj hne hli hlj
              have c1 : ∀ x, (upd s.node k v x).tid = (s.node x).tid := by intro x; by_cases e : x = k <;> simp [e, e1]
              have c2 : ∀ x, ((upd s.node k v x).live = true ∨ (upd s.node k v x).handle = true) → ((s.node x).live = true ∨ (s.node x).handle = true) := by
                intro x hx; by_cases e : x = k
                · simp only [upd_apply, e, if_true, e2, e3, Bool.false_eq_true, or_false] at hx; left; rw [e]; exact hx
                · simpa only [upd_apply, e, if_false] using hx
              rw [c1, c1]
              exact h9 i j hi hj hne (c2 i hli) (c2 j hlj)
            split at hs
            · rename_i hfin
              cases hs
              refine ⟨h1.erase k, ?_, ?_, ?_, ?_, ?_, ?_, ?_, huniq _ rfl rfl rfl, ?_, h11⟩
              · intro j hj
                have hj' := (List.Nodup.mem_erase_iff h1).1 hj
                simp only [upd_apply, hj'.1, if_false]; exact h2 j hj'.2
              · intro j hj hr hf
                by_cases e : j = k
                · simp [e] at hf
                · simp only [upd_apply, e, if_false] at hr hf
                  exact (List.Nodup.mem_erase_iff h1).2 ⟨e, h3 j hj hr hf⟩
              · intro j hj hd
                by_cases e : j = k
                · simp [e] at hd
                · simp only [upd_apply, e, if_false] at hd ⊢; exact h4 j hj hd
              · intro j hj hd
                by_cases e : j = k
                · simp [e, k2]
                · simp only [upd_apply, e, if_false] at hd ⊢; exact h5 j hj hd
              · intro j hj
                by_cases e : j = k
                · subst e; simp only [upd_apply, if_true]; exact h6 j hj
                · simp only [upd_apply, e, if_false]; exact h6 j hj
              · intro j hj hd
                by_cases e : j = k
                · simp [e, hfin]
                · simp only [upd_apply, e, if_false] at hd ⊢; exact h7 j hj hd
              · intro j hj hd he
                by_cases e : j = k
                · simp [e]
                · simp only [upd_apply, e, if_false] at hd he ⊢; exact h8 j hj hd he
              · exact order_upd (h10.sublist List.erase_sublist) rfl (fun h => h) (fun _ => rfl)
            · rename_i hfin
              cases hs
              refine ⟨h1, ?_, ?_, ?_, ?_, ?_, ?_, ?_, huniq _ rfl rfl rfl, order_upd h10 rfl (fun h => h) (fun _ => rfl), h11⟩
              · intro j hj
                by_cases e : j = k
                · subst e; simp only [upd_apply, if_true]; exact h2 j hj
                · simp only [upd_apply, e, if_false]; exact h2 j hj
              · intro j hj hr hf
                by_cases e : j = k
                · subst e; exact hkm
                · simp only [upd_apply, e, if_false] at hr hf; exact h3 j hj hr hf
              · intro j hj hd
                by_cases e : j = k
                · simp [e] at hd
                · simp only [upd_apply, e, if_false] at hd ⊢; exact h4 j hj hd
              · intro j hj hd
                by_cases e : j = k
                · simp [e, k2]
                · simp only [upd_apply, e, if_false] at hd ⊢; exact h5 j hj hd
              · intro j hj
                by_cases e : j = k
                · subst e; simp only [upd_apply, if_true]; exact h6 j hj
                · simp only [upd_apply, e, if_false]; exact h6 j hj
              · intro j hj hd
                by_cases e : j = k
                · simp [e, k3] at hd
                · simp only [upd_apply, e, if_false] at hd ⊢; exact h7 j hj hd
              · intro j hj hd he
                by_cases e : j = k
                · simp [e, hfin] at hd
                · simp only [upd_apply, e, if_false] at hd he ⊢; exact h8 j hj hd he
      · cases hs
    | finish i =>
      simp only [step] at hs
      split at hs
      · rename_i hg
        obtain ⟨g1, g2, g3⟩ := hg
        have hnfin : (s.node i).finished = false := by rw [h6 i g1]; exact g3
        have hnf : (s.node i).freed = false := by
          cases hf : (s.node i).freed with
          | false => rfl
          | true => have := (h7 i g1 hf).1; rw [hnfin] at this; cases this
        rw [if_neg (by rw [hnf]; simp)] at hs
        split at hs
        · rename_i hd
          obtain ⟨d1, d2⟩ := h5 i g1 hd
          have hm := h3 i g1 d2 hnf
          rw [lookup_self hI hm (.inl g2)] at hs
          simp only at hs
          cases hs
          refine ⟨h1.erase i, ?_, ?_, ?_, ?_, ?_, ?_, ?_, ?_, order_upd (h10.sublist List.erase_sublist) rfl (fun h => h) (fun _ => rfl), h11⟩
          · intro j hj
            have hj' := (List.Nodup.mem_erase_iff h1).1 hj
            simp only [upd_apply, hj'.1, if_false]; exact h2 j hj'.2
          · intro j hj hr hf
            by_cases e : j = i
            · simp [e] at hf
            · simp only [upd_apply, e, if_false] at hr hf
              exact (List.Nodup.mem_erase_iff h1).2 ⟨e, h3 j hj hr hf⟩
          · intro j hj hd'
            by_cases e : j = i
            · simp [e, hd] at hd'
            · simp only [upd_apply, e, if_false] at hd' ⊢; exact h4 j hj hd'
          · intro j hj hd'
            by_cases e : j = i
            · simp [e, d2]
            · simp only [upd_apply, e, if_false] at hd' ⊢; exact h5 j hj hd'
          · intro j hj
            by_cases e : j = i
            · simp [e]
            · simp only [upd_apply, e, if_false]; exact h6 j hj
          · intro j hj hd'
            by_cases e : j = i
            · simp [e, hd]
            · simp only [upd_apply, e, if_false] at hd' ⊢; exact h7 j hj hd'
          · intro j hj hd' he
            by_cases e : j = i
            · simp [e]
            · simp only [upd_apply, e, if_false] at hd' he ⊢; exact h8 j hj hd' he
          · intro j k hj hk hne hlj hlk
            have c1 : ∀ x, (upd s.node i { s.node i with finished := true, wrapped := true, handle := false, freed := true } x).tid = (s.node x).tid := by
              intro x; by_cases e : x = i <;> simp [e]
            have c2 : ∀ x, ((upd s.node i { s.node i with finished := true, wrapped := true, handle := false, freed := true } x).live = true ∨
                (upd s.node i { s.node i with finished := true, wrapped := true, handle := false, freed := true } x).handle = true) → ((s.node x).live = true ∨ (s.node x).handle = true) := by
              intro x hx; by_cases e : x = i
              · left; rw [e]; exact g2
              · simpa only [upd_apply, e, if_false] using hx
            rw [c1, c1]
            exact h9 j k hj hk hne (c2 j hlj) (c2 k hlk)
        · rename_i hd
          have hd' : (s.node i).detached = false := by simpa using hd
          cases hs
          refine ⟨h1, ?_, ?_, ?_, ?_, ?_, ?_, ?_, ?_, order_upd h10 rfl (fun h => h) (fun h => h), h11⟩
          · intro j hj
            by_cases e : j = i
            · subst e; simp only [upd_apply, if_true]; exact h2 j hj
            · simp only [upd_apply, e, if_false]; exact h2 j hj
          · intro j hj hr hf
            by_cases e : j = i
            · subst e; simp only [upd_apply, if_true] at hr hf; exact h3 j hj hr hf
            · simp only [upd_apply, e, if_false] at hr hf; exact h3 j hj hr hf
          · intro j hj hd'
            by_cases e : j = i
            · subst e; simp only [upd_apply, if_true] at hd' ⊢; exact h4 j hj hd'
            · simp only [upd_apply, e, if_false] at hd' ⊢; exact h4 j hj hd'
          · intro j hj hd'
            by_cases e : j = i
            · subst e; simp only [upd_apply, if_true] at hd' ⊢; exact h5 j hj hd'
            · simp only [upd_apply, e, if_false] at hd' ⊢; exact h5 j hj hd'
          · intro j hj
            by_cases e : j = i
            · simp [e]
            · simp only [upd_apply, e, if_false]; exact h6 j hj
          · intro j hj hd'
            by_cases e : j = i
            · simp [e, hnf] at hd'
            · simp only [upd_apply, e, if_false] at hd' ⊢; exact h7 j hj hd'
          · intro j hj hx he
            by_cases e : j = i
            · simp [e, hd'] at he
            · simp only [upd_apply, e, if_false] at hx he ⊢; exact h8 j hj hx he
          · intro j k hj hk hne hlj hlk
            have c1 : ∀ x, (upd s.node i { s.node i with finished := true, wrapped := true } x).tid = (s.node x).tid := by intro x; by_cases e : x = i <;> simp [e]
            have c2 : ∀ x, (upd s.node i { s.node i with finished := true, wrapped := true } x).live = (s.node x).live := by intro x; by_cases e : x = i <;> simp [e]
            have c3 : ∀ x, (upd s.node i { s.node i with finished := true, wrapped := true } x).handle = (s.node x).handle := by intro x; by_cases e : x = i <;> simp [e]
            simp only [c1, c2, c3] at hlj hlk ⊢
            exact h9 j k hj hk hne hlj hlk
      · cases hs
    | done i =>
      simp only [step] at hs
      split at hs <;> cases hs
      exact kill hI i
    | exit i =>
      simp only [step] at hs
      split at hs <;> cases hs
      exact kill hI i
where
  kill {s : St} (hI : Inv s) (i : Nat) : Inv { s with node := upd s.node i { s.node i with live := false } } := by
    obtain ⟨h1, h2, h3, h4, h5, h6, h7, h8, h9, h10, h11⟩ := hI
    have e1 : ∀ x, (upd s.node i { s.node i with live := false } x).tid = (s.node x).tid := by intro x; by_cases e : x = i <;> simp [e]
    have e2 : ∀ x, (upd s.node i { s.node i with live := false } x).reg = (s.node x).reg := by intro x; by_cases e : x = i <;> simp [e]
    have e3 : ∀ x, (upd s.node i { s.node i with live := false } x).handle = (s.node x).handle := by intro x; by_cases e : x = i <;> simp [e]
    have e4 : ∀ x, (upd s.node i { s.node i with live := false } x).detached = (s.node x).detached := by intro x; by_cases e : x = i <;> simp [e]
    have e5 : ∀ x, (upd s.node i { s.node i with live := false } x).finished = (s.node x).finished := by intro x; by_cases e : x = i <;> simp [e]
    have e6 : ∀ x, (upd s.node i { s.node i with live := false } x).freed = (s.node x).freed := by intro x; by_cases e : x = i <;> simp [e]
    have e7 : ∀ x, (upd s.node i { s.node i with live := false } x).wrapped = (s.node x).wrapped := by intro x; by_cases e : x = i <;> simp [e]
    have e8 : ∀ x, (upd s.node i { s.node i with live := false } x).live = true → (s.node x).live = true := by intro x; by_cases e : x = i <;> simp [e]
    refine ⟨h1, ?_, ?_, ?_, ?_, ?_, ?_, ?_, ?_, order_upd h10 rfl (fun _ => rfl) (fun h => h), h11⟩
    · intro j hj; simp only [e2, e6]; exact h2 j hj
    · intro j hj; simp only [e2, e6]; exact h3 j hj
    · intro j hj; simp only [e3, e4]; exact h4 j hj
    · intro j hj; simp only [e2, e3, e4]; exact h5 j hj
    · intro j hj; simp only [e5, e7]; exact h6 j hj
    · intro j hj; simp only [e4, e5, e6]; exact h7 j hj
    · intro j hj; simp only [e4, e5, e6]; exact h8 j hj
    · intro j k hj hk hne hlj hlk
      simp only [e1, e3] at hlj hlk ⊢
      exact h9 j k hj hk hne (hlj.imp (e8 j) id) (hlk.imp (e8 k) id)

theorem ended_wrapped {s : St} (h : ReachN s) : ∀ i, i < s.cnt → (s.node i).live = false → (s.node i).wrapped = true := by
  induction h with
  | init => intro i hi; simp [St.init] at hi
  | @step s s' a _ hn hs ih =>
    cases a with
    | create t =>
      simp only [step] at hs
      split at hs <;> cases hs
      intro i hi hl
      by_cases e : i = s.cnt
      · simp [e] at hl
      · simp only [upd_apply, e, if_false] at hl ⊢
        have : i < s.cnt + 1 := hi
        exact ih i (by omega) hl
    | register k =>
      simp only [step] at hs
      split at hs
      · split at hs <;> cases hs
        · exact ih
        · intro i hi hl
          by_cases e : i = k
          · subst e; simp only [upd_apply, if_true] at hl ⊢; exact ih i hi hl
          · simp only [upd_apply, e, if_false] at hl ⊢; exact ih i hi hl
      · cases hs
    | detach j =>
      simp only [step] at hs
      split at hs
      · split at hs
        · cases hs; exact ih
        · rename_i k hk
          split at hs
          · cases hs; exact ih
          · split at hs
            · cases hs; exact ih
            · split at hs <;> cases hs <;>
              · intro i hi hl
                by_cases e : i = k
                · subst e; simp only [upd_apply, if_true] at hl ⊢; exact ih i hi hl
                · simp only [upd_apply, e, if_false] at hl ⊢; exact ih i hi hl
      · cases hs
    | finish k =>
      simp only [step] at hs
      split at hs
      · split at hs
        · cases hs; exact ih
        · split at hs <;> cases hs <;>
          · intro i hi hl
            by_cases e : i = k
            · subst e; simp
            · simp only [upd_apply, e, if_false] at hl ⊢; exact ih i hi hl
      · cases hs
    | done k =>
      simp only [step] at hs
      split at hs <;> cases hs
      rename_i hg
      intro i hi hl
      by_cases e : i = k
      · subst e; simp only [upd_apply, if_true]; exact hg.2.2
      · simp only [upd_apply, e, if_false] at hl ⊢; exact ih i hi hl
    | exit k => exact absurd rfl (hn k)

/-- C173 (windows: nothing freed is used). In every history of starting, detaching and ending threads, in every interleaving and with thread ids used again: no
    freed record is used or freed again; the records in the list are not freed, and each is listed once. -/
theorem C173_windows_safe {s : St} (h : Reach s) : s.bad = false ∧ s.list.Nodup ∧ ∀ i ∈ s.list, (s.node i).freed = false :=
  ⟨(inv_reach h).safe, (inv_reach h).nodup, fun i hi => ((inv_reach h).mem i hi).2.2⟩

/-- C173 (windows: nothing is left behind). If threads end by returning from their function: once a thread was detached and has ended, its record is freed, its handle closed
    and it is not listed. -/
theorem C173_windows_released {s : St} (h : ReachN s) (i : Nat) (hi : i < s.cnt) (hd : (s.node i).detached = true) (hl : (s.node i).live = false) :
    (s.node i).freed = true ∧ (s.node i).handle = false ∧ i ∉ s.list := by
  have hI := inv_reach h.reach
  have hw := ended_wrapped h i hi hl
  have hf := hI.both i hi (by rw [hI.fin i hi]; exact hw) hd
  exact ⟨hf, (hI.det i hi hd).1, fun hm => by have := (hI.mem i hm).2.2; rw [hf] at this; cases this⟩

/-- C173 (windows: detaching finds the right thread). The call that detaches a thread just made, whatever it has done in the meantime, marks that thread's record. -/
theorem C173_windows_detach {s s' : St} (h : Reach s) (i : Nat) (hd : (s.node i).detached = false) (hs : step s (.detach i) = some s') :
    (s'.node i).detached = true ∧ (s'.node i).handle = false := by
  have hI := inv_reach h
  simp only [step] at hs
  split at hs
  · rename_i hg
    have hnf : (s.node i).freed = false := by
      cases hf : (s.node i).freed with
      | false => rfl
      | true => have := (hI.free i hg.1 hf).2; rw [hd] at this; cases this
    have hm := hI.listed i hg.1 hg.2 hnf
    rw [lookup_self hI hm (.inr (hI.handle i hg.1 hd))] at hs
    simp only at hs
    rw [if_neg (by rw [hnf]; simp), if_neg (by rw [hd]; simp)] at hs
    split at hs <;> cases hs <;> simp
  · cases hs

/-- C174 (windows). Two threads alive at the same time have different ids. -/
theorem C174_windows {s : St} (h : Reach s) (i j : Nat) (hi : i < s.cnt) (hj : j < s.cnt) (hne : i ≠ j) (li : (s.node i).live = true) (lj : (s.node j).live = true) :
    (s.node i).tid ≠ (s.node j).tid := (inv_reach h).uniq i j hi hj hne (.inl li) (.inl lj)

def run (s : St) : List Act → Option St
  | [] => some s
  | a :: l => (step s a).bind fun s' => run s' l

theorem reach_run {l : List Act} : ∀ {s s' : St}, ReachN s → (∀ a ∈ l, ∀ i, a ≠ .exit i) → run s l = some s' → ReachN s' := by
  induction l with
  | nil => intro s s' h _ hr; cases hr; exact h
  | cons a l ih =>
    intro s s' h hn hr
    simp only [run] at hr
    cases hs : step s a with
    | none => simp [hs] at hr
    | some s1 =>
      simp only [hs, Option.bind_some] at hr
      exact ih (h.step (hn a (by simp)) hs) (fun b hb => hn b (by simp [hb])) hr

/-- the system never refuses an id nobody has: for the `create` of the examples -/
theorem create_ok (s : St) (t : Nat) (h : ∀ i, i < s.cnt → ((s.node i).live = true ∨ (s.node i).handle = true) → (s.node i).tid ≠ t) :
    step s (.create t) = some { s with cnt := s.cnt + 1, node := upd s.node s.cnt ⟨t, true, false, false, false, false, true, false⟩ } := by
  simp only [step]; rw [if_pos h]

/-- non-vacuity: a thread that finishes before it is listed and detached, then a second one with the same id that is detached while it runs -/
example : ∃ s, run .init [.create 7, .finish 0, .done 0, .register 0, .detach 0, .create 7, .register 1, .detach 1, .finish 1, .done 1] = some s ∧
    (s.node 0).freed = true ∧ (s.node 1).freed = true ∧ s.list = [] ∧ s.bad = false := by
  simp [run, step, St.init, lookup]

/-- C173 is false of the code (windows) for a thread that ends by aosl_hal_thread_exit: its record is never freed, whatever happens later. -/
theorem C173_windows_exit (t : Nat) : ∃ s, run .init [.create t, .register 0, .detach 0, .exit 0] = some s ∧
    ∀ l s', run s l = some s' → (s'.node 0).freed = false := by
  refine ⟨⟨1, upd (upd (upd (upd (fun _ => ⟨0, false, false, false, false, false, false, false⟩) 0 ⟨t, true, false, false, false, false, true, false⟩)
    0 ⟨t, true, false, true, false, false, true, false⟩) 0 ⟨t, true, false, true, true, false, false, false⟩) 0 ⟨t, false, false, true, true, false, false, false⟩, [0], false⟩,
    by simp [run, step, St.init, lookup], ?_⟩
  have key : ∀ (l : List Act) (s s' : St), s.cnt ≥ 1 → (s.node 0).detached = true → (s.node 0).live = false → (s.node 0).freed = false → run s l = some s' →
      (s'.node 0).freed = false := by
    intro l
    induction l with
    | nil => intro s s' _ _ _ hf hr; cases hr; exact hf
    | cons a l ih =>
      intro s s' hc hd hl hf hr
      simp only [run] at hr
      cases hs : step s a with
      | none => simp [hs] at hr
      | some s1 =>
        simp only [hs, Option.bind_some] at hr
        have hstep : s1.cnt ≥ 1 ∧ (s1.node 0).detached = true ∧ (s1.node 0).live = false ∧ (s1.node 0).freed = false := by
          cases a with
          | create u =>
            simp only [step] at hs
            split at hs <;> cases hs
            have e : ¬ 0 = s.cnt := by omega
            simp only [upd_apply, e, if_false]
            exact ⟨by omega, hd, hl, hf⟩
          | register k =>
            simp only [step] at hs
            split at hs
            · split at hs <;> cases hs
              · exact ⟨hc, hd, hl, hf⟩
              · by_cases e : 0 = k
                · subst e; simp only [upd_apply, if_true]; exact ⟨hc, hd, hl, hf⟩
                · simp only [upd_apply, e, if_false]; exact ⟨hc, hd, hl, hf⟩
            · cases hs
          | detach j =>
            simp only [step] at hs
            split at hs
            · split at hs
              · cases hs; exact ⟨hc, hd, hl, hf⟩
              · rename_i k hk
                split at hs
                · cases hs; exact ⟨hc, hd, hl, hf⟩
                · split at hs
                  · cases hs; exact ⟨hc, hd, hl, hf⟩
                  · rename_i hnd
                    have e : ¬ 0 = k := by intro e; subst e; exact hnd hd
                    split at hs <;> cases hs <;> simp only [upd_apply, e, if_false] <;> exact ⟨hc, hd, hl, hf⟩
            · cases hs
          | finish k =>
            simp only [step] at hs
            split at hs
            · rename_i hg
              have e : ¬ 0 = k := by intro e; subst e; rw [hl] at hg; simp at hg
              split at hs
              · cases hs; exact ⟨hc, hd, hl, hf⟩
              · split at hs <;> cases hs <;> simp only [upd_apply, e, if_false] <;> exact ⟨hc, hd, hl, hf⟩
            · cases hs
          | done k =>
            simp only [step] at hs
            split at hs <;> cases hs
            by_cases e : 0 = k
            · subst e; simp only [upd_apply, if_true]; exact ⟨hc, hd, trivial, hf⟩
            · simp only [upd_apply, e, if_false]; exact ⟨hc, hd, hl, hf⟩
          | exit k =>
            simp only [step] at hs
            split at hs <;> cases hs
            by_cases e : 0 = k
            · subst e; simp only [upd_apply, if_true]; exact ⟨hc, hd, trivial, hf⟩
            · simp only [upd_apply, e, if_false]; exact ⟨hc, hd, hl, hf⟩
        exact ih s1 s' hstep.1 hstep.2.1 hstep.2.2.1 hstep.2.2.2 hr
  intro l s' hr
  exact key l _ s' (by simp) (by simp) (by simp) (by simp) hr

end Win

/-! ## xr872 -/
namespace Xr

inductive Reach : St → Prop
  | init : Reach St.init
  | step {s s' : St} {a : Act} : Reach s → step s a = some s' → Reach s'

structure Inv (s : St) : Prop where
  nodup : s.list.Nodup
  mem : ∀ (i : Nat), i ∈ s.list ↔ s.live i = true
  lt : ∀ (i : Nat), s.live i = true → i < s.cnt
  fr : ∀ (i : Nat), s.freed i = if i < s.cnt ∧ s.live i = false then 1 else 0

theorem inv_reach {s : St} (h : Reach s) : Inv s := by
  induction h with
  | init => exact ⟨by simp [St.init], by simp [St.init], by simp [St.init], by simp [St.init]⟩
  | @step s s' a _ hs ih =>
    obtain ⟨h1, h2, h3, h4⟩ := ih
    cases a with
    | create ok =>
      have hn : s.live s.cnt = false := by
        cases hl : s.live s.cnt with
        | false => rfl
        | true => have := h3 _ hl; omega
      cases ok with
      | true =>
        simp only [step, if_true] at hs; cases hs
        refine ⟨List.nodup_cons.2 ⟨by rw [h2, hn]; simp, h1⟩, ?_, ?_, ?_⟩
        · intro i; by_cases e : i = s.cnt
          · simp [e]
          · simp only [List.mem_cons, e, false_or, upd_apply, if_false]; exact h2 i
        · intro i hi; by_cases e : i = s.cnt
          · simp [e]
          · simp only [upd_apply, e, if_false] at hi; have := h3 i hi; simp only; omega
        · intro i; by_cases e : i = s.cnt
          · rw [h4, e]; simp
          · rw [h4]
            simp only [upd_apply, e, if_false]
            have : (i < s.cnt + 1) ↔ (i < s.cnt) := by omega
            simp only [this]
      | false =>
        simp only [step, Bool.false_eq_true, if_false] at hs; cases hs
        refine ⟨h1, h2, fun i hi => by have := h3 i hi; simp only; omega, ?_⟩
        intro i; by_cases e : i = s.cnt
        · have := h4 s.cnt
          simp at this
          simp [e, hn, this]
        · simp only [upd_apply, e, if_false]
          rw [h4]
          have : (i < s.cnt + 1) ↔ (i < s.cnt) := by omega
          simp only [this]
    | exit k =>
      simp only [step] at hs
      split at hs <;> cases hs
      rename_i hl
      have hm := (h2 k).2 hl
      refine ⟨h1.erase k, ?_, ?_, ?_⟩
      · intro i
        rw [List.Nodup.mem_erase_iff h1]
        by_cases e : i = k
        · simp [e]
        · simp only [upd_apply, e, if_false, ne_eq, not_false_eq_true, true_and]; exact h2 i
      · intro i hi
        by_cases e : i = k
        · simp [e] at hi
        · simp only [upd_apply, e, if_false] at hi; exact h3 i hi
      · intro i
        by_cases e : i = k
        · subst e
          have := h4 i
          simp only [upd_apply, if_true, hm, this, hl, h3 i hl]
          simp
        · simp only [upd_apply, e, if_false]; exact h4 i

/-- C173 (xr872). In every history, the records listed are those of the threads alive, and every other record made was freed exactly once. -/
theorem C173_xr872 {s : St} (h : Reach s) (i : Nat) (hi : i < s.cnt) :
    (i ∈ s.list ↔ s.live i = true) ∧ s.freed i = if s.live i then 0 else 1 := by
  have hI := inv_reach h
  refine ⟨hI.mem i, ?_⟩
  rw [hI.fr i]
  cases s.live i <;> simp [hi]

example : ∃ s, Reach s ∧ s.cnt = 3 ∧ s.list = [2] ∧ s.freed 0 = 1 ∧ s.freed 1 = 1 ∧ s.freed 2 = 0 := by
  refine ⟨_, Reach.step (Reach.step (Reach.step (Reach.step .init (a := .create true) rfl) (a := .create false) rfl) (a := .create true) rfl)
    (a := .exit 0) (by simp [step, St.init]; rfl), ?_⟩
  simp [St.init]

/-- C174 (xr872, partial): different threads of the library have different identities. -/
theorem C174_xr872_partial {s : St} (h : Reach s) (i j : Nat) (hi : s.live i = true) (hj : s.live j = true) (hne : i ≠ j) : self s (.own i) ≠ self s (.own j) := by
  have hI := inv_reach h
  simp only [self, (hI.mem i).2 hi, (hI.mem j).2 hj, if_true]
  intro e; cases e; exact hne rfl

/-- C174 is false of the code (xr872): all threads not made by the library, the main thread among them, have one identity, NULL: they share their thread-local values,
    their error number and their queue. -/
theorem C174_xr872_foreign (s : St) (k l : Nat) : self s (.foreign k) = none ∧ self s (.foreign k) = self s (.foreign l) := ⟨rfl, rfl⟩

end Xr

/-! ## tw82x -/
namespace Tw

/-- successful creations -/
def succeeded : List Bool → Nat
  | [] => 0
  | b :: l => (if b then 1 else 0) + succeeded l

theorem succeeded_append (a b : List Bool) : succeeded (a ++ b) = succeeded a + succeeded b := by
  induction a with
  | nil => simp [succeeded]
  | cons x l ih => simp only [List.cons_append, succeeded, ih]; omega

def free (l : List (Option Nat)) : Nat := l.countP (·.isNone)

theorem set_spec (l : List (Option Nat)) (k : Nat) : (free l = 0 ∧ set l k = none) ∨ (0 < free l ∧ ∃ l', set l k = some l' ∧ free l' + 1 = free l) := by
  induction l with
  | nil => left; simp [free, set]
  | cons x l ih =>
    cases x with
    | none => right; simp [free, set]
    | some v =>
      rcases ih with ⟨h1, h2⟩ | ⟨h1, l', h2, h3⟩
      · left; simp only [free] at *; simp [set, h2, h1]
      · right; simp only [free] at *; refine ⟨by simpa using h1, some v :: l', by simp [set, h2], by simpa using h3⟩

theorem run_count (l : List Act) : ∀ s, succeeded (run s l).2 + free (run s l).1.slots = free s.slots := by
  induction l with
  | nil => intro s; simp [run, succeeded]
  | cons a l ih =>
    intro s
    simp only [run, succeeded_append]
    have := ih (step s a).1
    have h2 : succeeded (step s a).2.toList + free (step s a).1.slots = free s.slots := by
      cases a with
      | create ok =>
        simp only [step]
        rcases set_spec s.slots s.used with ⟨h1, h2⟩ | ⟨h1, l', h2, h3⟩
        · simp [h2, succeeded]
        · cases ok <;> simp [h2, succeeded] <;> omega
      | detach k => simp [step, succeeded]
      | finish k => simp [step, succeeded]
      | exit k => simp [step, succeeded]
    omega

/-- C173 is false of the code (tw82x): over the whole life of the process, however many of the threads have ended, at most 32 threads can be started. -/
theorem C173_tw82x_limit (l : List Act) : succeeded (run .init l).2 ≤ 32 := by
  have := run_count l .init
  have e : free St.init.slots = 32 := by decide
  omega

/-- … and a start fails exactly if the system refuses or 32 threads were started before. -/
theorem C173_tw82x_exact (l : List Act) (ok : Bool) :
    (step (run .init l).1 (.create ok)).2 = some (ok && decide (succeeded (run .init l).2 < 32)) := by
  have h := run_count l .init
  have e : free St.init.slots = 32 := by decide
  simp only [step]
  rcases set_spec (run .init l).1.slots (run .init l).1.used with ⟨h1, h2⟩ | ⟨h1, l', h2, h3⟩
  · rw [h2]
    have : ¬ succeeded (run .init l).2 < 32 := by omega
    simp [this]
  · rw [h2]
    have : succeeded (run .init l).2 < 32 := by omega
    cases ok <;> simp [this]

example : (run .init (List.flatten (List.replicate 33 [.create true, .detach 0, .finish 0]))).2 = List.replicate 32 true ++ [false] := by decide +kernel

end Tw

/-! ## ac791n -/
namespace Ac

/-- `n` creations that succeed, with anything else in between -/
def created : List Act → Nat
  | [] => 0
  | .create true :: l => 1 + created l
  | _ :: l => created l

/-- the first `n` slots hold the first `n` contexts -/
def filled (n : Nat) : List (Option Nat) := (List.range max).map fun i => if i < n then some i else none

theorem firstFree_map (f : Nat → Option Nat) (m n : Nat) (hn : n ≤ m) (h1 : ∀ i, i < n → f i ≠ none) (h2 : ∀ i, n ≤ i → i < m → f i = none) :
    firstFree ((List.range m).map f) = if n < m then some n else none := by
  induction m generalizing f n with
  | zero => simp [firstFree]
  | succ m ih =>
    rw [List.range_succ_eq_map]
    simp only [List.map_cons, List.map_map]
    cases hf : f 0 with
    | none =>
      have : n = 0 := by
        cases n with
        | zero => rfl
        | succ n => exact absurd hf (h1 0 (by omega))
      subst this
      simp [firstFree]
    | some v =>
      have hpos : 0 < n := by
        cases n with
        | zero => have := h2 0 (by omega) (by omega); rw [hf] at this; cases this
        | succ n => omega
      have := ih (f ∘ Nat.succ) (n - 1) (by omega) (fun i hi => h1 (i + 1) (by omega)) (fun i hi hm => h2 (i + 1) (by omega) (by omega))
      simp only [firstFree]
      rw [this]
      split <;> split
      · simp; omega
      · omega
      · omega
      · rfl

theorem firstFree_filled (n : Nat) (h : n ≤ max) : firstFree (filled n) = if n < max then some n else none := by
  refine firstFree_map _ max n h ?_ ?_
  · intro i hi; simp [hi]
  · intro i hi _; simp [Nat.not_lt.2 hi]

theorem filled_set (n : Nat) (h : n < max) : (filled n).set n (some n) = filled (n + 1) := by
  apply List.ext_getElem?
  intro i
  simp only [filled, List.getElem?_set, List.length_map, List.length_range, List.getElem?_map]
  by_cases e : n = i
  · subst e; simp [h]
  · simp only [e, if_false]
    by_cases hi : i < max
    · simp only [List.getElem?_range hi, Option.map_some]
      have : (i < n + 1) ↔ (i < n) := by omega
      simp only [this]
    · rw [List.getElem?_eq_none (by simp; omega)]; rfl

structure Inv (n : Nat) (s : St) : Prop where
  len : s.ctx.length = n
  slots : s.slots = filled (min n max)
  idx : ∀ (k : Nat) (c : Ctx), s.ctx[k]? = some c → c.idx = (if k < max then k else 0) ∧ 0 < c.refs ∧ (c.ended = false → c.refs = 2)

theorem inv_step {n : Nat} {s : St} (h : Inv n s) (a : Act) : Inv (n + created [a]) (step s a) := by
  obtain ⟨h1, h2, h3⟩ := h
  cases a with
  | create ok =>
    cases ok with
    | false => exact ⟨h1, h2, h3⟩
    | true =>
      simp only [created, step]
      rw [h2, firstFree_filled _ (by omega)]
      by_cases hn : n < max
      · rw [if_pos (by omega)]
        have e : min n max = n := by omega
        refine ⟨by simp [h1], ?_, ?_⟩
        · simp only; rw [h1, e, filled_set n hn, show min (n + (1 + 0)) max = n + 1 by omega]
        · intro k c hk
          simp only [List.getElem?_append] at hk
          split at hk
          · exact h3 k c hk
          · rename_i hlt
            have : k = n := by
              have := (List.getElem?_eq_some_iff.1 hk).1
              simp at this; omega
            rw [this, h1] at hk
            simp at hk
            rw [← hk, this]
            simp [hn, e]
      · rw [if_neg (by omega)]
        refine ⟨by simp [h1], ?_, ?_⟩
        · simp only; rw [show min n max = min (n + (1 + 0)) max by omega]
        · intro k c hk
          simp only [List.getElem?_append] at hk
          split at hk
          · exact h3 k c hk
          · rename_i hlt
            have : k = n := by
              have := (List.getElem?_eq_some_iff.1 hk).1
              simp at this; omega
            rw [this, h1] at hk
            simp at hk
            rw [← hk, this]
            simp [hn]
  | detach k => exact ⟨h1, h2, h3⟩
  | finish k =>
    simp only [created, step, Nat.add_zero]
    cases hk : s.ctx[k]? with
    | none => exact ⟨h1, h2, h3⟩
    | some c =>
      simp only
      split
      · exact ⟨h1, h2, h3⟩
      · rename_i hne
        refine ⟨by simpa using h1, h2, ?_⟩
        intro j d hj
        by_cases e : j = k
        · subst e
          rw [List.getElem?_set_self (List.getElem?_eq_some_iff.1 hk).1] at hj
          cases hj
          obtain ⟨a1, a2, a3⟩ := h3 j c hk
          refine ⟨a1, ?_, by simp⟩
          have := a3 (by simpa using hne)
          simp only; omega
        · rw [List.getElem?_set_ne (Ne.symm e)] at hj
          exact h3 j d hj

theorem created_cons (a : Act) (l : List Act) : created (a :: l) = created [a] + created l := by
  cases a with
  | create ok => cases ok <;> simp [created]
  | detach k => simp [created]
  | finish k => simp [created]

theorem inv_run (l : List Act) : ∀ n s, Inv n s → Inv (n + created l) (run s l) := by
  induction l with
  | nil => intro n s h; exact h
  | cons a l ih =>
    intro n s h
    rw [created_cons, ← Nat.add_assoc]
    exact ih _ _ (inv_step h a)

theorem inv_init : Inv 0 .init := ⟨rfl, by decide, by simp [St.init]⟩

/-- C173 is false of the code (ac791n): no context of a thread is ever freed: after every history each of them has a reference. -/
theorem C173_ac791n_leak (l : List Act) (k : Nat) (hk : k < created l) : ∃ c, (run .init l).ctx[k]? = some c ∧ 0 < c.refs := by
  have h := inv_run l 0 _ inv_init
  rw [Nat.zero_add] at h
  have hlt : k < (run .init l).ctx.length := by rw [h.len]; exact hk
  exact ⟨_, List.getElem?_eq_getElem hlt, (h.idx k _ (List.getElem?_eq_getElem hlt)).2.1⟩

/-- C174, exactly (ac791n): the first 16 threads started have their own identities; every later one has the identity of the first thread. -/
theorem C174_ac791n_exact (l : List Act) (k : Nat) (hk : k < created l) : self (run .init l) k = some (if k < 16 then k else 0) := by
  have h := inv_run l 0 _ inv_init
  rw [Nat.zero_add] at h
  have hlt : k < (run .init l).ctx.length := by rw [h.len]; exact hk
  have hi := (h.idx k _ (List.getElem?_eq_getElem hlt)).1
  simp only [self, List.getElem?_eq_getElem hlt, hi, h.slots]
  have hm : max = 16 := rfl
  by_cases h16 : k < 16
  · have : k < max := h16
    simp only [this, h16, if_true, filled, List.getElem?_map, List.getElem?_range this, Option.map_some]
    rw [if_pos (by omega)]; rfl
  · have : ¬ k < max := h16
    simp only [this, h16, if_false, filled, List.getElem?_map, List.getElem?_range (show 0 < max by omega), Option.map_some]
    rw [if_pos (by omega)]; rfl

/-- C174 is false of the code (ac791n): with 17 threads started, two that run have the same identity, although 15 may have ended long ago. -/
theorem C174_ac791n_clash : ∃ l, created l = 17 ∧ (∀ k, k ∈ [0, 16] → Act.finish k ∉ l) ∧ (∀ k, 1 ≤ k → k ≤ 15 → Act.finish k ∈ l) ∧
    self (run .init l) 0 = self (run .init l) 16 := by
  refine ⟨List.replicate 16 (.create true) ++ (List.range 15).map (fun k => .finish (k + 1)) ++ [.create true], by decide, by decide, ?_, ?_⟩
  · intro k h1 h2
    simp only [List.mem_append, List.mem_map, List.mem_range]
    left; right; exact ⟨k - 1, by omega, by congr 1; omega⟩
  · rw [C174_ac791n_exact _ 0 (by decide), C174_ac791n_exact _ 16 (by decide)]; rfl

end Ac

/-! ## ipro7 -/
namespace Ipro

/-- the thread's function returns only after the creating call has detached the thread -/
def late (s : St) : List Act → Prop
  | [] => True
  | a :: l => (a = .thread → s.t = .run → s.c = .out) ∧ late (step s a) l

/-- the thread's function returned, and the thread waited for the join, before the detaching began -/
def early (s : St) : List Act → Prop
  | [] => True
  | a :: l => (a = .creator → s.c = .tagged → s.t = .ended) ∧ early (step s a) l

theorem late_inv (l : List Act) : ∀ s, ((s.t = .run ∧ s.completed = false ∧ s.frees = 0 ∧ s.uaf = false ∧ s.c ≠ .read true ∧ (s.c = .out → s.detached = true)) ∨
      (s.c = .out ∧ s.t = .completed ∧ s.detached = true ∧ s.frees = 0 ∧ s.uaf = false) ∨
      (s.c = .out ∧ s.t = .read true ∧ s.frees = 0 ∧ s.uaf = false) ∨ (s.c = .out ∧ s.t = .ended ∧ s.frees = 1 ∧ s.uaf = false)) →
    ((s.c = .marked ∨ (∃ b, s.c = .read b)) → s.detached = true) → late s l → (run s l).uaf = false ∧ ((run s l).frees = if (run s l).t = .ended then 1 else 0) := by
  induction l with
  | nil =>
    intro s h _ _
    rcases h with ⟨h1, h2, h3, h4, h5⟩ | ⟨h1, h2, h3, h4, h5⟩ | ⟨h1, h2, h3, h4⟩ | ⟨h1, h2, h3, h4⟩ <;> simp_all [run]
  | cons a l ih =>
    intro s h hd hl
    obtain ⟨hl1, hl2⟩ := hl
    simp only [run]
    refine ih _ ?_ ?_ hl2
    · obtain ⟨t, c, completed, detached, frees, uaf⟩ := s
      cases a <;> cases t <;> cases c <;> simp_all [step, St.touch]
      all_goals (try (rename_i b; cases b <;> simp_all))
    · obtain ⟨t, c, completed, detached, frees, uaf⟩ := s
      cases a <;> cases t <;> cases c <;> simp_all [step, St.touch]
      all_goals (try (rename_i b; cases b <;> simp_all))

/-- C173 (ipro7, partial). If the thread's function returns only after the thread was detached, in every interleaving nothing freed is used, and the record is freed once, by the
    thread at its end. Missing: a function that returns earlier (`C173_ipro7_double_free`, `C173_ipro7_uaf`). -/
theorem C173_ipro7_partial (l : List Act) (h : late .init l) : (run .init l).uaf = false ∧ (run .init l).frees = if (run .init l).t = .ended then 1 else 0 :=
  late_inv l .init (.inl ⟨rfl, rfl, rfl, rfl, by simp [St.init], by simp [St.init]⟩) (by simp [St.init]) h

example : late .init [.creator, .creator, .creator, .creator, .thread, .thread, .thread] ∧
    (run .init [.creator, .creator, .creator, .creator, .thread, .thread, .thread]).frees = 1 := by
  simp [late, step, run, St.init, St.touch]

/-- C173 is false of the code (ipro7): the thread ends while it is detached: both free its record. -/
theorem C173_ipro7_double_free : (run .init [.creator, .creator, .thread, .thread, .creator, .creator, .thread]).frees = 2 := by decide

/-- C173 is false of the code (ipro7): the thread reads that it is not detached; it is detached, and its record and semaphore are freed; the thread posts the semaphore. -/
theorem C173_ipro7_uaf : (run .init [.creator, .thread, .thread, .creator, .creator, .creator, .thread]).uaf = true := by decide

end Ipro
end Verif.PortThread
