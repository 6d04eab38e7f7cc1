import Verif.FdTab
/-! # C54: one registration per fd -/

namespace Verif.FdTab

/-! ## Look-up and removal in the table -/

theorem find_mem {tab : List (Nat × Nat)} {fd id : Nat} (h : find tab fd = some id) : (fd, id) ∈ tab := by
  simp only [find, Option.map_eq_some_iff] at h
  obtain ⟨⟨a, b⟩, h1, h2⟩ := h
  have := List.mem_of_find?_eq_some h1
  have h3 := List.find?_some h1
  simp only [beq_iff_eq] at h3
  simp only at h2
  subst h2; subst h3; exact this

theorem find_none {tab : List (Nat × Nat)} {fd : Nat} (h : find tab fd = none) (id : Nat) : (fd, id) ∉ tab := by
  simp only [find, Option.map_eq_none_iff, List.find?_eq_none] at h
  intro hm
  exact h _ hm (by simp)

theorem mem_erase {tab : List (Nat × Nat)} {fd : Nat} {p : Nat × Nat} : p ∈ erase tab fd ↔ p ∈ tab ∧ p.1 ≠ fd := by
  simp [erase]

theorem find_erase (tab : List (Nat × Nat)) (fd : Nat) : find (erase tab fd) fd = none := by
  simp only [find, Option.map_eq_none_iff, List.find?_eq_none]
  intro p hp
  have := (mem_erase.1 hp).2
  simpa using this

theorem nodup_erase {tab : List (Nat × Nat)} (fd : Nat) (h : (tab.map Prod.fst).Nodup) : ((erase tab fd).map Prod.fst).Nodup :=
  List.Pairwise.sublist (List.Sublist.map _ (List.filter_sublist)) h

theorem find_of_mem {tab : List (Nat × Nat)} (h : (tab.map Prod.fst).Nodup) {fd id : Nat} (hm : (fd, id) ∈ tab) : find tab fd = some id := by
  induction tab with
  | nil => simp at hm
  | cons p ps ih =>
    simp only [List.map_cons, List.nodup_cons] at h
    simp only [find, List.find?_cons]
    rcases List.mem_cons.1 hm with e | hm'
    · subst e; simp
    · have : p.1 ≠ fd := by
        intro e
        exact h.1 (e ▸ List.mem_map_of_mem (f := Prod.fst) hm')
      have hb : (p.1 == fd) = false := by simpa using this
      rw [hb]
      exact ih h.2 hm'

theorem lt_of_get {l : List Obj} {i : Nat} {o : Obj} (h : l[i]? = some o) : i < l.length := (List.getElem?_eq_some_iff.1 h).1

theorem get_set {l : List Obj} {i j : Nat} {o o' a : Obj} (h : l[i]? = some o) (hj : (l.set i a)[j]? = some o') :
    (j = i ∧ o' = a) ∨ (j ≠ i ∧ l[j]? = some o') := by
  by_cases e : i = j
  · subst e
    rw [List.getElem?_set_self (lt_of_get h)] at hj
    exact Or.inl ⟨rfl, (Option.some.inj hj).symm⟩
  · rw [List.getElem?_set_ne e] at hj
    exact Or.inr ⟨fun h => e h.symm, hj⟩

/-! ## Elementary changes

Every action is one of these.  `ab`: no abort while the object is held; `st`: no stale removal (see below). -/

/-- An object leaves or stays; the effect of an action on the object `id`, its references and the table. -/
inductive Small (ab st : Prop) (s : St) : St → Prop
  | new (fd q : Nat) (h : find s.tab fd = none) :
      Small ab st s { s with objs := s.objs ++ [⟨some fd, q, 1, .fresh, 0⟩], tab := (fd, s.objs.length) :: s.tab }
  | attach (id : Nat) (o : Obj) (h : s.objs[id]? = some o) (hp : o.phase = .fresh) :
      Small ab st s { touch s o with objs := s.objs.set id { o with phase := .linked } }
  | abort (id : Nat) (o : Obj) (h : s.objs[id]? = some o) (hp : o.phase = .fresh) (hab : ab → id ∉ s.holds) :
      Small ab st s { touch s o with
        objs := s.objs.set id { o with phase := .dropped, freed := o.freed + 1, usage := o.usage - 1 },
        tab := match o.fd with
          | some fd => erase s.tab fd
          | none => s.tab }
  | get (fd id : Nat) (o : Obj) (hf : find s.tab fd = some id) (h : s.objs[id]? = some o) :
      Small ab st s { touch s o with objs := s.objs.set id { o with usage := o.usage + 1 }, holds := id :: s.holds }
  | lost (fd id : Nat) (hf : find s.tab fd = some id) (h : s.objs[id]? = none) : Small ab st s { s with bad := true }
  | put (id : Nat) (o : Obj) (h : s.objs[id]? = some o) (hh : id ∈ s.holds) :
      Small ab st s { touch s o with objs := s.objs.set id (decUsage o), holds := s.holds.erase id }
  | look (id : Nat) (o : Obj) (h : s.objs[id]? = some o) (hh : id ∈ s.holds ∨ o.phase ≠ .dropped) : Small ab st s (touch s o)
  | stale (id fd : Nat) (o : Obj) (h : s.objs[id]? = some o) (hh : id ∈ s.holds ∨ o.phase ≠ .dropped)
      (hfd : o.fd = some fd) (hf : find s.tab fd ≠ some id)
      (hst : st → find s.tab fd = none) : Small ab st s { touch s o with tab := erase s.tab fd }
  /-- the initial reference is dropped while another one is held; the fd may be closed -/
  | drop (id fd : Nat) (o : Obj) (h : s.objs[id]? = some o) (hh : id ∈ s.holds) (hfd : o.fd = some fd) (hf : find s.tab fd = some id)
      (c : Bool) (cl : List Nat) :
      Small ab st s { touch s o with
        objs := s.objs.set id { decUsage { o with phase := .dropped } with fd := if c then none else some fd },
        tab := erase s.tab fd, closed := cl }
  /-- one iteration of `mpq_fini_iofds` -/
  | fini (id fd : Nat) (o : Obj) (h : s.objs[id]? = some o) (hp : o.phase = .linked) (hfd : o.fd = some fd) (hf : find s.tab fd = some id) :
      Small ab st s { touch s o with
        objs := s.objs.set id (decUsage { decUsage { o with phase := .dropped, usage := o.usage + 1 } with fd := none }),
        tab := erase s.tab fd, closed := s.closed ++ [fd] }

/-- The reference that `__this_q_close_f` takes and drops again changes nothing. -/
theorem fini_obj (o : Obj) (h : o.usage ≠ 0) : decUsage { decUsage { o with phase := Phase.dropped, usage := o.usage + 1 } with fd := none } =
    { decUsage { o with phase := Phase.dropped } with fd := none } := by
  unfold decUsage
  by_cases hu1 : o.usage = 1 <;> simp [h, hu1]

theorem qDel_cases (s : St) (id q : Nat) (o : Obj) : (qDel s id q o = (s, ePERM)) ∨ (qDel s id q o = (s, eNONET) ∧ o.fd = none) ∨
    (∃ fd, o.fd = some fd ∧ find s.tab fd ≠ some id ∧ qDel s id q o = ({ s with tab := erase s.tab fd }, eNONET)) ∨
    (∃ fd, o.q = q ∧ o.fd = some fd ∧ find s.tab fd = some id ∧
      qDel s id q o = ({ s with objs := s.objs.set id (decUsage { o with phase := .dropped }), tab := erase s.tab fd }, eOK)) := by
  unfold qDel
  split
  · exact Or.inl rfl
  · rename_i hq
    cases h : o.fd with
    | none => exact Or.inr (Or.inl ⟨rfl, rfl⟩)
    | some fd =>
      simp only
      by_cases hf : find s.tab fd = some id
      · rw [if_pos hf]
        exact Or.inr (Or.inr (Or.inr ⟨fd, Decidable.not_not.1 hq, rfl, hf, rfl⟩))
      · rw [if_neg hf]
        exact Or.inr (Or.inr (Or.inl ⟨fd, rfl, hf, rfl⟩))

theorem decUsage_fd (o : Obj) : (decUsage o).fd = o.fd := by unfold decUsage; split <;> rfl

theorem decUsage_phase (o : Obj) : (decUsage o).phase = o.phase := by unfold decUsage; split <;> rfl

theorem qClose_cases (s : St) (id q : Nat) (o : Obj) : (qClose s id q o = (s, ePERM)) ∨ (qClose s id q o = (s, eNONET)) ∨
    (∃ fd, o.fd = some fd ∧ find s.tab fd ≠ some id ∧ qClose s id q o = ({ s with tab := erase s.tab fd }, eNONET)) ∨
    (∃ fd, o.q = q ∧ o.fd = some fd ∧ find s.tab fd = some id ∧
      qClose s id q o = ({ s with
        objs := s.objs.set id { decUsage { o with phase := .dropped } with fd := none },
        tab := erase s.tab fd, closed := s.closed ++ [fd] }, eOK)) := by
  have hn : eNONET < 0 := by decide
  have hp : ePERM < 0 := by decide
  have ho : ¬ eOK < 0 := by decide
  unfold qClose
  rcases qDel_cases s id q o with e | ⟨e, -⟩ | ⟨fd, h1, h2, e⟩ | ⟨fd, h0, h1, h2, e⟩
  · simp [e, hp]
  · simp [e, hn]
  · simp only [e]; rw [if_pos hn]; exact Or.inr (Or.inr (Or.inl ⟨fd, h1, h2, rfl⟩))
  · simp only [e]; rw [if_neg ho, h1]
    refine Or.inr (Or.inr (Or.inr ⟨fd, h0, rfl, h2, ?_⟩))
    simp only [List.set_set]

theorem fd_eta (d : Obj) (fd : Nat) (h : d.fd = some fd) : { d with fd := if false = true then none else some fd } = d := by
  cases d; simp_all

/-- `abort` is not done while another thread holds a reference. -/
def NoHeldAbort (s : St) (op : Op) : Prop := ∀ id, op = .abort id → id ∉ s.holds

/-- The object on which the action removes a registration. -/
def target : Op → Option Nat
  | .del id _ => some id
  | .close id _ => some id
  | .fini id _ => some id
  | _ => none

/-- The removal is not applied to an object whose fd belongs to another registration by now. -/
def NoStale (s : St) (op : Op) : Prop :=
  ∀ id o fd, target op = some id → s.objs[id]? = some o → o.fd = some fd → find s.tab fd = some id ∨ find s.tab fd = none

/-- An action is nothing, or one elementary change. -/
theorem step_small (ab st : Prop) (s s' : St) (op : Op) (r : Int) (h : step s op = some (s', r)) (hab : ab → NoHeldAbort s op)
    (hst : st → NoStale s op) : s' = s ∨ Small ab st s s' := by
  have hstale : ∀ id o fd, target op = some id → s.objs[id]? = some o → o.fd = some fd → find s.tab fd ≠ some id → st → find s.tab fd = none :=
    fun id o fd h1 h2 h3 h4 h5 => (hst h5 id o fd h1 h2 h3).resolve_left h4
  cases op with
  | install fd q raced =>
    simp only [step] at h
    split at h
    · simp only [Option.some.injEq, Prod.mk.injEq] at h; exact Or.inl h.1.symm
    · rename_i hf
      simp only [Option.some.injEq, Prod.mk.injEq] at h
      rw [← h.1]; exact Or.inr (.new fd q hf)
  | attach id =>
    simp only [step] at h
    split at h
    · simp at h
    · rename_i o ho
      split at h
      · rename_i hp
        simp only [Option.some.injEq, Prod.mk.injEq] at h
        rw [← h.1]; exact Or.inr (.attach id o ho hp)
      · simp at h
  | abort id =>
    simp only [step] at h
    split at h
    · simp at h
    · rename_i o ho
      split at h
      · rename_i hp
        simp only [Option.some.injEq, Prod.mk.injEq] at h
        rw [← h.1]; exact Or.inr (.abort id o ho hp (fun h => hab h id rfl))
      · simp at h
  | get fd =>
    simp only [step] at h
    split at h
    · simp only [Option.some.injEq, Prod.mk.injEq] at h; exact Or.inl h.1.symm
    · rename_i id hf
      split at h
      · rename_i hn
        simp only [Option.some.injEq, Prod.mk.injEq] at h
        rw [← h.1]; exact Or.inr (.lost fd id hf hn)
      · rename_i o ho
        simp only [Option.some.injEq, Prod.mk.injEq] at h
        rw [← h.1]; exact Or.inr (.get fd id o hf ho)
  | put id =>
    simp only [step] at h
    split at h
    · rename_i hh
      split at h
      · simp at h
      · rename_i o ho
        simp only [Option.some.injEq, Prod.mk.injEq] at h
        rw [← h.1]; exact Or.inr (.put id o ho hh)
    · simp at h
  | del id q =>
    simp only [step] at h
    split at h
    · rename_i hh
      split at h
      · simp at h
      · rename_i o ho
        split at h
        · simp at h
        simp only [Option.some.injEq] at h
        rcases qDel_cases (touch s o) id q o with e | ⟨e, -⟩ | ⟨fd, h1, h2, e⟩ | ⟨fd, -, h1, h2, e⟩
        all_goals rw [e] at h; simp only [Prod.mk.injEq] at h; rw [← h.1]; right
        · exact .look id o ho (Or.inl hh)
        · exact .look id o ho (Or.inl hh)
        · exact .stale id fd o ho (Or.inl hh) h1 h2 (hstale id o fd rfl ho h1 h2)
        · have := Small.drop (ab := ab) (st := st) id fd o ho hh h1 h2 false s.closed
          have he := fd_eta (decUsage { o with phase := .dropped }) fd (by rw [decUsage_fd]; exact h1)
          rw [he] at this
          exact this
    · simp at h
  | close id q =>
    simp only [step] at h
    split at h
    · rename_i hh
      split at h
      · simp at h
      · rename_i o ho
        split at h
        · simp at h
        simp only [Option.some.injEq] at h
        rcases qClose_cases (touch s o) id q o with e | e | ⟨fd, h1, h2, e⟩ | ⟨fd, -, h1, h2, e⟩
        all_goals rw [e] at h; simp only [Prod.mk.injEq] at h; rw [← h.1]; right
        · exact .look id o ho (Or.inl hh)
        · exact .look id o ho (Or.inl hh)
        · exact .stale id fd o ho (Or.inl hh) h1 h2 (hstale id o fd rfl ho h1 h2)
        · exact Small.drop id fd o ho hh h1 h2 true (s.closed ++ [fd])
    · simp at h
  | fini id q =>
    simp only [step] at h
    split at h
    · simp at h
    · rename_i o ho
      split at h
      · rename_i hpq
        have hn : eNONET < 0 := by decide
        have hp : ePERM < 0 := by decide
        have hk : ¬ eOK < 0 := by decide
        rcases qClose_cases (touch s o) id q { o with usage := o.usage + 1 } with e | e | ⟨fd, h1, h2, e⟩ | ⟨fd, -, h1, h2, e⟩
        all_goals simp only [e] at h; right
        · rw [if_pos hp] at h
          simp only [Option.some.injEq, Prod.mk.injEq] at h
          rw [← h.1]
          exact .look id o ho (Or.inr (by simp [hpq.1]))
        · rw [if_pos hn] at h
          simp only [Option.some.injEq, Prod.mk.injEq] at h
          rw [← h.1]
          exact .look id o ho (Or.inr (by simp [hpq.1]))
        · rw [if_pos hn] at h
          simp only [Option.some.injEq, Prod.mk.injEq] at h
          rw [← h.1]
          exact .stale id fd o ho (Or.inr (by simp [hpq.1])) h1 h2 (hstale id o fd rfl ho h1 h2)
        · rw [if_neg hk, List.getElem?_set_self (lt_of_get (by exact ho))] at h
          simp only [Option.some.injEq, Prod.mk.injEq, List.set_set] at h
          rw [← h.1]
          exact Small.fini id fd o ho hpq.1 h1 h2
      · simp at h

/-! ## The table -/

/-- One object per fd, and what the table refers to exists, carries this fd and has not been removed. -/
structure TabInv (s : St) : Prop where
  keys : (s.tab.map Prod.fst).Nodup
  ent : ∀ fd id, (fd, id) ∈ s.tab → ∃ o, s.objs[id]? = some o ∧ o.fd = some fd ∧ o.phase ≠ .dropped

theorem tabInv_set {s : St} (hi : TabInv s) {id : Nat} {o a : Obj} (ho : s.objs[id]? = some o) (ha : a.fd = o.fd)
    (hp : o.phase ≠ .dropped → a.phase ≠ .dropped) (bad : Bool) (hs cl : List Nat) : TabInv ⟨s.objs.set id a, s.tab, hs, cl, bad⟩ := by
  refine ⟨hi.keys, fun fd j hm => ?_⟩
  obtain ⟨o', h1, h2, h3⟩ := hi.ent fd j hm
  by_cases e : id = j
  · subst e
    rw [ho] at h1; cases h1
    exact ⟨a, List.getElem?_set_self (lt_of_get ho), by rw [ha]; exact h2, hp h3⟩
  · exact ⟨o', by simp only; rw [List.getElem?_set_ne e]; exact h1, h2, h3⟩

theorem tabInv_erase {s : St} (hi : TabInv s) {id fd : Nat} {o a : Obj} (ho : s.objs[id]? = some o) (hfd : o.fd = some fd)
    (bad : Bool) (hs cl : List Nat) : TabInv ⟨s.objs.set id a, erase s.tab fd, hs, cl, bad⟩ := by
  refine ⟨nodup_erase fd hi.keys, fun fd' j hm => ?_⟩
  obtain ⟨hm1, hm2⟩ := mem_erase.1 hm
  obtain ⟨o', h1, h2, h3⟩ := hi.ent fd' j hm1
  by_cases e : id = j
  · subst e
    rw [ho] at h1; cases h1
    rw [hfd] at h2; cases h2
    exact absurd rfl hm2
  · exact ⟨o', by simp only; rw [List.getElem?_set_ne e]; exact h1, h2, h3⟩

theorem small_tab {ab st : Prop} {s s' : St} (hi : TabInv s) (h : Small ab st s s') : TabInv s' := by
  cases h with
  | new fd q h =>
    refine ⟨?_, ?_⟩
    · simp only [List.map_cons, List.nodup_cons]
      refine ⟨fun hm => ?_, hi.keys⟩
      obtain ⟨⟨a, b⟩, h1, h2⟩ := List.mem_map.1 hm
      simp only at h2; subst h2
      exact find_none h b h1
    · intro fd' j hm
      rcases List.mem_cons.1 hm with e | hm
      · cases e
        exact ⟨_, by simp only; rw [List.getElem?_append_right (by omega)]; simp; rfl, rfl, by simp⟩
      · obtain ⟨o, h1, h2, h3⟩ := hi.ent fd' j hm
        exact ⟨o, by simp only; rw [List.getElem?_append_left (lt_of_get h1)]; exact h1, h2, h3⟩
  | attach id o h hp => exact tabInv_set (a := { o with phase := .linked }) hi h rfl (fun _ => by simp) _ _ _
  | abort id o h hp hab =>
    cases hfd : o.fd with
    | some fd => exact tabInv_erase hi h hfd _ _ _
    | none =>
      refine ⟨hi.keys, fun fd j hm => ?_⟩
      obtain ⟨o', h1, h2, h3⟩ := hi.ent fd j hm
      by_cases e : id = j
      · subst e
        rw [h] at h1; cases h1
        rw [hfd] at h2; cases h2
      · exact ⟨o', by simp only; rw [List.getElem?_set_ne e]; exact h1, h2, h3⟩
  | get fd id o hf h => exact tabInv_set (a := { o with usage := o.usage + 1 }) hi h rfl (fun h => h) _ _ _
  | lost => exact ⟨hi.keys, hi.ent⟩
  | put id o h hh => exact tabInv_set hi h (decUsage_fd o) (fun h => by rw [decUsage_phase]; exact h) _ _ _
  | look => exact ⟨hi.keys, hi.ent⟩
  | stale id fd o h hh hfd hf hst =>
    refine ⟨nodup_erase fd hi.keys, fun fd' j hm => ?_⟩
    obtain ⟨hm1, hm2⟩ := mem_erase.1 hm
    exact hi.ent fd' j hm1
  | drop id fd o h hh hfd hf c cl => exact tabInv_erase hi h hfd _ _ _
  | fini id fd o h hp hfd hf => exact tabInv_erase hi h hfd _ _ _

theorem tab_init : TabInv init := ⟨by simp [init], by simp [init]⟩

/-! ## References -/

/-- The count is the number of references: those of callers, and the initial one until it is dropped.  An object is destroyed
exactly when the count is 0. -/
structure RefInv (s : St) : Prop where
  bad : s.bad = false
  usage : ∀ (id : Nat) (o : Obj), s.objs[id]? = some o → o.usage = s.holds.count id + (if o.phase = .dropped then 0 else 1)
  freed : ∀ (id : Nat) (o : Obj), s.objs[id]? = some o → o.freed = if o.usage = 0 then 1 else 0
  held : ∀ id ∈ s.holds, id < s.objs.length

theorem ref_init : RefInv init := ⟨rfl, by simp [init], by simp [init], by simp [init]⟩

/-- Changing one object. -/
theorem refInv_set {s : St} (hi : RefInv s) {id : Nat} {o a : Obj} (ho : s.objs[id]? = some o) (hs : List Nat) (tab : List (Nat × Nat)) (cl : List Nat)
    (hl : ∀ j, j ≠ id → hs.count j = s.holds.count j) (hu : a.usage = hs.count id + (if a.phase = .dropped then 0 else 1))
    (hf : a.freed = if a.usage = 0 then 1 else 0) (hb : o.usage ≠ 0) : RefInv ⟨s.objs.set id a, tab, hs, cl, s.bad || decide (0 < o.freed)⟩ := by
  refine ⟨?_, ?_, ?_, ?_⟩
  · have := hi.freed id o ho
    rw [if_neg hb] at this
    simp [hi.bad, this]
  · intro j o' hj
    rcases get_set ho hj with ⟨e, e'⟩ | ⟨e, e'⟩
    · subst e; subst e'; exact hu
    · have := hi.usage j o' e'
      simp only; rw [hl j e]; exact this
  · intro j o' hj
    rcases get_set ho hj with ⟨e, e'⟩ | ⟨e, e'⟩
    · subst e; subst e'; exact hf
    · exact hi.freed j o' e'
  · intro j hj
    simp only [List.length_set]
    by_cases e : j = id
    · subst e; exact lt_of_get ho
    · refine hi.held j ?_
      have := hl j e
      have h1 := List.count_pos_iff.2 hj
      exact List.count_pos_iff.1 (by simp only at h1; omega)

theorem usage_pos {s : St} (hi : RefInv s) {id : Nat} {o : Obj} (ho : s.objs[id]? = some o) (h : id ∈ s.holds ∨ o.phase ≠ .dropped) : o.usage ≠ 0 := by
  have := hi.usage id o ho
  rcases h with h | h
  · have := List.count_pos_iff.2 h; omega
  · rw [if_neg h] at this; omega

theorem small_ref {st : Prop} {s s' : St} (ht : TabInv s) (hi : RefInv s) (h : Small True st s s') : RefInv s' := by
  have hlook : ∀ id o, s.objs[id]? = some o → (id ∈ s.holds ∨ o.phase ≠ .dropped) → (s.bad || decide (0 < o.freed)) = false := by
    intro id o h1 h2
    have := hi.freed id o h1
    rw [if_neg (usage_pos hi h1 h2)] at this
    simp [hi.bad, this]
  cases h with
  | new fd q h =>
    refine ⟨hi.bad, ?_, ?_, ?_⟩
    · intro j o hj
      by_cases e : j < s.objs.length
      · simp only [List.getElem?_append_left e] at hj
        exact hi.usage j o hj
      · have e1 := lt_of_get hj
        simp only [List.length_append, List.length_singleton] at e1
        have : j = s.objs.length := by omega
        subst this
        simp at hj
        subst hj
        have : s.objs.length ∉ s.holds := fun hm => absurd (hi.held _ hm) (by omega)
        simp [List.count_eq_zero.2 this]
    · intro j o hj
      by_cases e : j < s.objs.length
      · simp only [List.getElem?_append_left e] at hj
        exact hi.freed j o hj
      · have e1 := lt_of_get hj
        simp only [List.length_append, List.length_singleton] at e1
        have : j = s.objs.length := by omega
        subst this
        simp at hj
        subst hj
        rfl
    · intro j hj
      have := hi.held j hj
      simp only [List.length_append, List.length_singleton]; omega
  | attach id o h hp =>
    have hu := hi.usage id o h
    have hf := hi.freed id o h
    refine refInv_set hi h s.holds s.tab s.closed (fun _ _ => rfl) ?_ hf (usage_pos hi h (Or.inr (by simp [hp])))
    simp only [hp] at hu ⊢
    exact hu
  | abort id o h hp hab =>
    have hu := hi.usage id o h
    have hf := hi.freed id o h
    have hnh : id ∉ s.holds := hab trivial
    have h0 := List.count_eq_zero.2 hnh
    rw [if_neg (by simp [hp])] at hu
    refine refInv_set hi h s.holds _ s.closed (fun _ _ => rfl) ?_ ?_ (usage_pos hi h (Or.inr (by simp [hp])))
    · simp; omega
    · simp only; rw [hf, if_neg (by omega), if_pos (by omega)]
  | get fd id o hf h =>
    obtain ⟨o', h1, h2, h3⟩ := ht.ent fd id (find_mem hf)
    rw [h] at h1; cases h1
    have hu := hi.usage id o h
    have hf := hi.freed id o h
    have hp := usage_pos hi h (Or.inr h3)
    refine refInv_set hi h (id :: s.holds) s.tab s.closed (fun j hj => List.count_cons_of_ne (Ne.symm hj)) ?_ ?_ hp
    · simp only [List.count_cons_self]; omega
    · simp only; rw [if_neg hp] at hf; rw [hf, if_neg (by omega)]
  | lost fd id hf h =>
    obtain ⟨o', h1, -⟩ := ht.ent fd id (find_mem hf)
    rw [h] at h1; cases h1
  | put id o h hh =>
    have hu := hi.usage id o h
    have hf := hi.freed id o h
    have hp := usage_pos hi h (Or.inl hh)
    have hc := List.count_pos_iff.2 hh
    refine refInv_set hi h (s.holds.erase id) s.tab s.closed (fun j hj => List.count_erase_of_ne hj) ?_ ?_ hp
    · rw [List.count_erase_self, decUsage_phase]
      unfold decUsage
      split <;> simp only <;> omega
    · rw [if_neg hp] at hf
      unfold decUsage
      split
      · simp [hf]
      · simp only; rw [hf, if_neg (by omega)]
  | look id o h hh => exact ⟨hlook id o h hh, hi.usage, hi.freed, hi.held⟩
  | stale id fd o h hh hfd hf hst => exact ⟨hlook id o h hh, hi.usage, hi.freed, hi.held⟩
  | drop id fd o h hh hfd hf c cl =>
    obtain ⟨o', h1, h2, h3⟩ := ht.ent fd id (find_mem hf)
    rw [h] at h1; cases h1
    have hu := hi.usage id o h
    have hf := hi.freed id o h
    rw [if_neg h3] at hu
    have hp := usage_pos hi h (Or.inl hh)
    have hc := List.count_pos_iff.2 hh
    have hd : decUsage { o with phase := .dropped } = { o with phase := .dropped, usage := o.usage - 1 } := by
      unfold decUsage; rw [if_neg (by simp only; omega)]
    rw [hd]
    refine refInv_set hi h s.holds _ cl (fun _ _ => rfl) ?_ ?_ hp
    · simp; omega
    · simp only; rw [if_neg hp] at hf; rw [hf, if_neg (by omega)]
  | fini id fd o h hpp hfd hf =>
    have hu := hi.usage id o h
    have hf := hi.freed id o h
    have hp := usage_pos hi h (Or.inr (by simp [hpp]))
    rw [if_neg (by simp [hpp])] at hu
    rw [if_neg hp] at hf
    rw [fini_obj o hp]
    refine refInv_set hi h s.holds _ (s.closed ++ [fd]) (fun _ _ => rfl) ?_ ?_ hp
    · unfold decUsage; split <;> simp only [if_true] <;> simp_all <;> omega
    · unfold decUsage; simp only
      by_cases e : o.usage = 1
      · rw [if_pos e]; simp [hf]
      · rw [if_neg e]; simp only; rw [hf, if_neg (by omega)]

/-! ## Registered objects can be found -/

/-- Every object that is registered (installed or linked, not removed) is the one the table gives for its fd. -/
def RegInv (s : St) : Prop := ∀ (id : Nat) (o : Obj), s.objs[id]? = some o → o.phase ≠ .dropped → ∃ fd, o.fd = some fd ∧ (fd, id) ∈ s.tab

theorem reg_init : RegInv init := by intro id o h; simp [init] at h

theorem regInv_set {s : St} (hi : RegInv s) {id : Nat} {o a : Obj} (ho : s.objs[id]? = some o) (ha : a.fd = o.fd)
    (hp : a.phase ≠ .dropped → o.phase ≠ .dropped) (bad : Bool) (hs cl : List Nat) : RegInv ⟨s.objs.set id a, s.tab, hs, cl, bad⟩ := by
  intro j o' hj hp'
  rcases get_set ho hj with ⟨e, e'⟩ | ⟨e, e'⟩
  · subst e; subst e'; rw [ha]; exact hi j o ho (hp hp')
  · exact hi j o' e' hp'

theorem regInv_drop {s : St} (ht : TabInv s) (hi : RegInv s) {id fd : Nat} {o a : Obj} (ho : s.objs[id]? = some o) (hfd : o.fd = some fd)
    (hor : find s.tab fd = some id ∨ find s.tab fd = none) (hp : a.phase = .dropped) (bad : Bool) (hs cl : List Nat) :
    RegInv ⟨s.objs.set id a, erase s.tab fd, hs, cl, bad⟩ := by
  intro j o' hj hp'
  rcases get_set ho hj with ⟨e, e'⟩ | ⟨e, e'⟩
  · subst e'; exact absurd hp hp'
  · obtain ⟨fd', h1, h2⟩ := hi j o' e' hp'
    refine ⟨fd', h1, mem_erase.2 ⟨h2, fun h3 => ?_⟩⟩
    simp only at h3; subst h3
    have h4 := find_of_mem ht.keys h2
    rcases hor with h5 | h5
    · rw [h4] at h5; cases h5; exact e rfl
    · rw [h4] at h5; cases h5

theorem small_reg {ab : Prop} {s s' : St} (ht : TabInv s) (hi : RegInv s) (h : Small ab True s s') : RegInv s' := by
  cases h with
  | new fd q h =>
    intro j o hj hp
    by_cases e : j < s.objs.length
    · simp only [List.getElem?_append_left e] at hj
      obtain ⟨fd', h1, h2⟩ := hi j o hj hp
      exact ⟨fd', h1, List.mem_cons_of_mem _ h2⟩
    · have e1 := lt_of_get hj
      simp only [List.length_append, List.length_singleton] at e1
      have : j = s.objs.length := by omega
      subst this
      simp at hj
      subst hj
      exact ⟨fd, rfl, List.mem_cons_self⟩
  | attach id o h hp => exact regInv_set (a := { o with phase := .linked }) hi h rfl (fun _ => by simp [hp]) _ _ _
  | abort id o h hp hab =>
    obtain ⟨fd, h1, h2⟩ := hi id o h (by simp [hp])
    rw [h1]
    exact regInv_drop ht hi h h1 (Or.inl (find_of_mem ht.keys h2)) rfl _ _ _
  | get fd id o hf h => exact regInv_set (a := { o with usage := o.usage + 1 }) hi h rfl (fun h => h) _ _ _
  | lost => exact hi
  | put id o h hh => exact regInv_set hi h (decUsage_fd o) (fun h => by rw [decUsage_phase] at h; exact h) _ _ _
  | look => exact hi
  | stale id fd o h hh hfd hf hst =>
    have hn := hst trivial
    intro j o' hj hp'
    obtain ⟨fd', h1, h2⟩ := hi j o' hj hp'
    refine ⟨fd', h1, mem_erase.2 ⟨h2, fun h3 => ?_⟩⟩
    simp only at h3; subst h3
    exact find_none hn j h2
  | drop id fd o h hh hfd hf c cl => exact regInv_drop ht hi h hfd (Or.inl hf) (decUsage_phase _) _ _ _
  | fini id fd o h hp hfd hf =>
    refine regInv_drop ht hi h hfd (Or.inl hf) ?_ _ _ _
    rw [decUsage_phase]
    exact decUsage_phase _

/-! ## Histories -/

/-- The condition holds at every action of the history. -/
def Along (P : St → Op → Prop) : St → List Op → Prop
  | _, [] => True
  | s, op :: ops => P s op ∧ ∀ s' r, step s op = some (s', r) → Along P s' ops

theorem run_tab (ops : List Op) : ∀ (s s' : St) (rs : List Int), TabInv s → run s ops = some (s', rs) → TabInv s' := by
  induction ops with
  | nil => intro s s' rs h hr; simp only [run, Option.some.injEq, Prod.mk.injEq] at hr; exact hr.1 ▸ h
  | cons op ops ih =>
    intro s s' rs h hr
    simp only [run] at hr
    split at hr
    · simp at hr
    · rename_i s1 r he
      simp only [Option.map_eq_some_iff] at hr
      obtain ⟨⟨a, b⟩, h1, h2⟩ := hr
      cases h2
      rcases step_small False False s s1 op r he False.elim False.elim with e | e
      · exact ih s1 _ _ (e ▸ h) h1
      · exact ih s1 _ _ (small_tab h e) h1

theorem run_ref (ops : List Op) : ∀ (s s' : St) (rs : List Int), TabInv s → RefInv s → Along NoHeldAbort s ops → run s ops = some (s', rs) → RefInv s' := by
  induction ops with
  | nil => intro s s' rs _ h _ hr; simp only [run, Option.some.injEq, Prod.mk.injEq] at hr; exact hr.1 ▸ h
  | cons op ops ih =>
    intro s s' rs ht h ha hr
    simp only [run] at hr
    split at hr
    · simp at hr
    · rename_i s1 r he
      simp only [Option.map_eq_some_iff] at hr
      obtain ⟨⟨a, b⟩, h1, h2⟩ := hr
      cases h2
      rcases step_small True False s s1 op r he (fun _ => ha.1) False.elim with e | e
      · exact ih s1 _ _ (e ▸ ht) (e ▸ h) (ha.2 s1 r he) h1
      · exact ih s1 _ _ (small_tab ht e) (small_ref ht h e) (ha.2 s1 r he) h1

theorem run_reg (ops : List Op) : ∀ (s s' : St) (rs : List Int), TabInv s → RegInv s → Along NoStale s ops → run s ops = some (s', rs) → RegInv s' := by
  induction ops with
  | nil => intro s s' rs _ h _ hr; simp only [run, Option.some.injEq, Prod.mk.injEq] at hr; exact hr.1 ▸ h
  | cons op ops ih =>
    intro s s' rs ht h ha hr
    simp only [run] at hr
    split at hr
    · simp at hr
    · rename_i s1 r he
      simp only [Option.map_eq_some_iff] at hr
      obtain ⟨⟨a, b⟩, h1, h2⟩ := hr
      cases h2
      rcases step_small False True s s1 op r he False.elim (fun _ => ha.1) with e | e
      · exact ih s1 _ _ (e ▸ ht) (e ▸ h) (ha.2 s1 r he) h1
      · exact ih s1 _ _ (small_tab ht e) (small_reg ht h e) (ha.2 s1 r he) h1

/-! ## C54 -/

/-- **C54**, at most one registration: under the condition that no removal hits a later registration (`NoStale`), two objects registered at the same time
have different fds, and each can be found under its fd. -/
theorem C54_single_partial (ops : List Op) (s : St) (rs : List Int) (hr : run init ops = some (s, rs)) (hn : Along NoStale init ops) :
    (∀ (i j : Nat) (oi oj : Obj), s.objs[i]? = some oi → s.objs[j]? = some oj → oi.phase ≠ .dropped → oj.phase ≠ .dropped → oi.fd = oj.fd → i = j) ∧
    (∀ (i : Nat) (oi : Obj), s.objs[i]? = some oi → oi.phase ≠ .dropped → ∃ fd, oi.fd = some fd ∧ find s.tab fd = some i) := by
  have ht := run_tab ops init s rs tab_init hr
  have hg := run_reg ops init s rs tab_init reg_init hn hr
  have h2 : ∀ i oi, s.objs[i]? = some oi → oi.phase ≠ .dropped → ∃ fd, oi.fd = some fd ∧ find s.tab fd = some i := by
    intro i oi h h'
    obtain ⟨fd, h1, h2⟩ := hg i oi h h'
    exact ⟨fd, h1, find_of_mem ht.keys h2⟩
  refine ⟨?_, h2⟩
  intro i j oi oj hi hj hpi hpj he
  obtain ⟨fd, h3, h4⟩ := h2 i oi hi hpi
  obtain ⟨fd', h5, h6⟩ := h2 j oj hj hpj
  rw [h3, h5] at he
  cases he
  rw [h4] at h6
  exact Option.some.inj h6

/-- **C54**, always: what is found under an fd is an object that was registered with this fd and has not been removed; no fd has two entries. -/
theorem C54_lookup (ops : List Op) (s : St) (rs : List Int) (hr : run init ops = some (s, rs)) :
    (s.tab.map Prod.fst).Nodup ∧ ∀ fd id, find s.tab fd = some id → ∃ o, s.objs[id]? = some o ∧ o.fd = some fd ∧ o.phase ≠ .dropped := by
  have ht := run_tab ops init s rs tab_init hr
  exact ⟨ht.keys, fun fd id h => ht.ent fd id (find_mem h)⟩

/-- **C54**, a second registration of a registered fd, by whatever queue, is refused with EEXIST or EBUSY and changes nothing. -/
theorem C54_second_refused_partial (ops : List Op) (s : St) (rs : List Int) (hr : run init ops = some (s, rs)) (hn : Along NoStale init ops)
    (id fd q : Nat) (o : Obj) (raced : Bool) (ho : s.objs[id]? = some o) (hreg : o.phase ≠ .dropped) (hfd : o.fd = some fd) :
    step s (.install fd q raced) = some (s, if raced then eBUSY else eEXIST) := by
  obtain ⟨fd', h1, h2⟩ := (C54_single_partial ops s rs hr hn).2 id o ho hreg
  rw [hfd] at h1; cases h1
  simp only [step, h2]

/-- **C54**, after a successful removal the fd is not found any more and can be registered again at once. -/
theorem C54_readd (s s' : St) (op : Op) (id fd q : Nat) (o : Obj) (raced : Bool) (hop : target op = some id) (ho : s.objs[id]? = some o)
    (hfd : o.fd = some fd) (h : step s op = some (s', eOK)) :
    step s' (.get fd) = some (s', eNOENT) ∧ ∃ s'', step s' (.install fd q raced) = some (s'', eOK) ∧ find s''.tab fd = some s'.objs.length := by
  have key : find s'.tab fd = none := by
    cases op with
    | del i q' =>
      simp only [target, Option.some.injEq] at hop; subst hop
      simp only [step, ho] at h
      split at h
      · split at h
        · simp at h
        simp only [Option.some.injEq] at h
        rcases qDel_cases (touch s o) i q' o with e | ⟨e, -⟩ | ⟨fd', h1, h2, e⟩ | ⟨fd', -, h1, h2, e⟩
        all_goals rw [e] at h; simp only [Prod.mk.injEq] at h
        · exact absurd h.2 (by decide)
        · exact absurd h.2 (by decide)
        · exact absurd h.2 (by decide)
        · rw [hfd] at h1; cases h1
          rw [← h.1]; exact find_erase _ _
      · simp at h
    | close i q' =>
      simp only [target, Option.some.injEq] at hop; subst hop
      simp only [step, ho] at h
      split at h
      · split at h
        · simp at h
        simp only [Option.some.injEq] at h
        rcases qClose_cases (touch s o) i q' o with e | e | ⟨fd', h1, h2, e⟩ | ⟨fd', -, h1, h2, e⟩
        all_goals rw [e] at h; simp only [Prod.mk.injEq] at h
        · exact absurd h.2 (by decide)
        · exact absurd h.2 (by decide)
        · exact absurd h.2 (by decide)
        · rw [hfd] at h1; cases h1
          rw [← h.1]; exact find_erase _ _
      · simp at h
    | fini i q' =>
      simp only [target, Option.some.injEq] at hop; subst hop
      simp only [step, ho] at h
      split at h
      · have hn : eNONET < 0 := by decide
        have hp : ePERM < 0 := by decide
        have hk : ¬ eOK < 0 := by decide
        rcases qClose_cases (touch s o) i q' { o with usage := o.usage + 1 } with e | e | ⟨fd', h1, h2, e⟩ | ⟨fd', -, h1, h2, e⟩
        all_goals simp only [e] at h
        · rw [if_pos hp] at h; simp only [Option.some.injEq, Prod.mk.injEq] at h; exact absurd h.2 (by decide)
        · rw [if_pos hn] at h; simp only [Option.some.injEq, Prod.mk.injEq] at h; exact absurd h.2 (by decide)
        · rw [if_pos hn] at h; simp only [Option.some.injEq, Prod.mk.injEq] at h; exact absurd h.2 (by decide)
        · rw [if_neg hk, List.getElem?_set_self (lt_of_get (by exact ho))] at h
          simp only [Option.some.injEq, Prod.mk.injEq] at h
          simp only [hfd, Option.some.injEq] at h1; subst h1
          rw [← h.1]; exact find_erase _ _
      · simp at h
    | _ => simp [target] at hop
  refine ⟨by simp only [step, key], ?_⟩
  simp only [step, key]
  exact ⟨_, rfl, by simp [find]⟩

/-- **C54**, destruction: if no registration is aborted while another thread holds the object, every object is destroyed exactly when it has been removed
and its last user has released it, at most once, and nothing destroyed is ever used. -/
theorem C54_destroyed_once_partial (ops : List Op) (s : St) (rs : List Int) (hr : run init ops = some (s, rs)) (hn : Along NoHeldAbort init ops) :
    s.bad = false ∧ ∀ (id : Nat) (o : Obj), s.objs[id]? = some o → o.freed ≤ 1 ∧ (o.freed = 1 ↔ o.phase = .dropped ∧ id ∉ s.holds) := by
  have hi := run_ref ops init s rs tab_init ref_init hn hr
  refine ⟨hi.bad, fun id o ho => ?_⟩
  have h1 := hi.usage id o ho
  have h2 := hi.freed id o ho
  by_cases hm : id ∈ s.holds
  · have := List.count_pos_iff.2 hm
    rw [if_neg (by omega)] at h2
    rw [h2]; simp [hm]
  · rw [List.count_eq_zero.2 hm] at h1
    by_cases hp : o.phase = .dropped
    · rw [if_pos hp] at h1
      rw [if_pos (by omega)] at h2
      rw [h2]; simp [hp, hm]
    · rw [if_neg hp] at h1
      rw [if_neg (by omega)] at h2
      rw [h2]; simp [hp]

/-- The objects in the queue's list. -/
def linkedOf (s : St) (q : Nat) : Nat := (s.objs.filter (fun o => o.phase = .linked && o.q = q)).length

theorem filter_set_drop (p : Obj → Bool) (l : List Obj) (i : Nat) (o a : Obj) (h : l[i]? = some o) (hp : p o = true) (ha : p a = false) :
    ((l.set i a).filter p).length + 1 = (l.filter p).length := by
  induction l generalizing i with
  | nil => simp at h
  | cons b l ih =>
    cases i with
    | zero => simp only [List.getElem?_cons_zero, Option.some.injEq] at h; subst h; simp [hp, ha]
    | succ i =>
      simp only [List.getElem?_cons_succ] at h
      have := ih i h
      simp only [List.set_cons_succ, List.filter_cons]
      cases p b <;> simp <;> omega

/-- **C54**, the queue's end: with no stale removal, each iteration of the final loop over the queue's fds closes one of them, so that the
loop ends; the fd can be registered again. -/
theorem C54_fini_partial (ops : List Op) (s : St) (rs : List Int) (hr : run init ops = some (s, rs)) (hn : Along NoStale init ops)
    (id q : Nat) (o : Obj) (ho : s.objs[id]? = some o) (hl : o.phase = .linked) (hq : o.q = q) :
    ∃ s' fd, o.fd = some fd ∧ step s (.fini id q) = some (s', eOK) ∧ s'.closed = s.closed ++ [fd] ∧ linkedOf s' q + 1 = linkedOf s q := by
  obtain ⟨fd, h1, h2⟩ := (C54_single_partial ops s rs hr hn).2 id o ho (by simp [hl])
  have hk : ¬ eOK < 0 := by decide
  have e : qClose (touch s o) id q { o with usage := o.usage + 1 } = ({ touch s o with
      objs := s.objs.set id { decUsage { o with phase := .dropped, usage := o.usage + 1 } with fd := none },
      tab := erase s.tab fd, closed := s.closed ++ [fd] }, eOK) := by
    have e1 : qDel (touch s o) id q { o with usage := o.usage + 1 } = ({ touch s o with
        objs := s.objs.set id (decUsage { o with phase := .dropped, usage := o.usage + 1 }), tab := erase s.tab fd }, eOK) := by
      unfold qDel
      rw [if_neg (by simp [hq])]
      simp only [h1]
      rw [if_pos (by exact h2)]
      rfl
    unfold qClose
    rw [e1]
    simp only
    rw [if_neg hk, h1]
    simp only [List.set_set, touch]
  refine ⟨{ touch s o with
      objs := s.objs.set id (decUsage { decUsage { o with phase := .dropped, usage := o.usage + 1 } with fd := none }),
      tab := erase s.tab fd, closed := s.closed ++ [fd] }, fd, h1, ?_, rfl, ?_⟩
  · simp only [step, ho]
    rw [if_pos ⟨hl, hq⟩]
    simp only [e]
    rw [if_neg hk, List.getElem?_set_self (lt_of_get ho)]
    simp only [List.set_set]
  · refine filter_set_drop _ s.objs id o _ ho (by simp [hl, hq]) ?_
    have : (decUsage { decUsage { o with phase := Phase.dropped, usage := o.usage + 1 } with fd := none }).phase = .dropped := by
      rw [decUsage_phase]; exact decUsage_phase _
    simp [this]

/-! ## Where C54 fails -/

/-- An error event of fd 7 is dispatched (`get`), its callback unregisters the fd (`get`, `del`, `put`), the number 7 is registered again, by queue 2, and then
the dispatcher closes its object because that still carries the number 7 (f_event_and_close, iofd.c:582-596). -/
def orphanOps : List Op := [.install 7 1 false, .attach 0, .get 7, .get 7, .del 0 1, .put 0, .install 7 2 false, .attach 1, .close 0 1, .put 0]

/-- **C54** fails: the new registration of fd 7 disappears from the table although it is in its queue's list and nobody removed it: the fd cannot be
found, and can be registered a second time. -/
theorem C54_orphan : ∃ s rs, run init orphanOps = some (s, rs) ∧ (s.objs[1]?).map (fun o => (o.fd, o.q, o.phase)) = some (some 7, 2, .linked) ∧
    step s (.get 7) = some (s, eNOENT) ∧ (step s (.install 7 3 false)).map (·.2) = some eOK := by
  refine ⟨_, _, rfl, ?_⟩
  decide +kernel

/-- **C54** fails: at the end of queue 2 the loop over its fds then never ends: the iteration fails and leaves everything as it was. -/
theorem C54_fini_spin : ∃ s rs, run init orphanOps = some (s, rs) ∧ step s (.fini 1 2) = some (s, eNONET) := by
  refine ⟨_, _, rfl, ?_⟩
  decide +kernel

/-- **C54** fails: if adding the fd to the queue's poll set fails, the object is freed at once although another thread
may have got a reference from the table; its release then uses freed memory. -/
theorem C54_addfail_uaf : ∃ s rs, run init [.install 7 1 false, .get 7, .abort 0, .put 0] = some (s, rs) ∧ s.bad = true := by
  refine ⟨_, _, rfl, ?_⟩
  decide +kernel

/-! ## Non-vacuity -/

/-- Registered by queue 1, used by another thread while it is closed, registered again by queue 2. -/
def okOps : List Op := [.install 7 1 false, .attach 0, .get 7, .get 7, .close 0 1, .install 7 2 true, .attach 1, .put 0, .put 0, .get 7]

example : ∃ s rs, run init okOps = some (s, rs) ∧ s.objs.map (fun o => (o.fd, o.usage, o.phase, o.freed)) =
    [(none, 0, .dropped, 1), (some 7, 2, .linked, 0)] ∧ s.holds = [1] ∧ s.closed = [7] := by
  refine ⟨_, _, rfl, ?_⟩
  decide +kernel

/-- A checker for the conditions on a concrete history. -/
def alongB (P : St → Op → Bool) : St → List Op → Bool
  | _, [] => true
  | s, op :: ops => P s op && match step s op with
    | none => true
    | some (s', _) => alongB P s' ops

theorem along_of_b (P : St → Op → Prop) (b : St → Op → Bool) (h : ∀ s op, b s op = true → P s op) (ops : List Op) :
    ∀ s, alongB b s ops = true → Along P s ops := by
  induction ops with
  | nil => intro s _; trivial
  | cons op ops ih =>
    intro s hs
    simp only [alongB, Bool.and_eq_true] at hs
    refine ⟨h s op hs.1, fun s' r he => ?_⟩
    have := hs.2
    rw [he] at this
    exact ih s' this

def noStaleB (s : St) (op : Op) : Bool :=
  match target op with
  | none => true
  | some id => match s.objs[id]? with
    | none => true
    | some o => match o.fd with
      | none => true
      | some fd => decide (find s.tab fd = some id) || decide (find s.tab fd = none)

theorem noStaleB_ok (s : St) (op : Op) (h : noStaleB s op = true) : NoStale s op := by
  intro id o fd h1 h2 h3
  simp only [noStaleB, h1, h2, h3, Bool.or_eq_true, decide_eq_true_eq] at h
  exact h

def noAbortB (s : St) (op : Op) : Bool :=
  match op with
  | .abort id => decide (id ∉ s.holds)
  | _ => true

theorem noAbortB_ok (s : St) (op : Op) (h : noAbortB s op = true) : NoHeldAbort s op := by
  intro id e
  subst e
  simpa [noAbortB] using h

example : Along NoStale init okOps ∧ Along NoHeldAbort init okOps :=
  ⟨along_of_b _ _ noStaleB_ok _ _ (by decide +kernel), along_of_b _ _ noAbortB_ok _ _ (by decide +kernel)⟩

/-- The bad history breaks exactly the stated condition. -/
example : ¬ Along NoStale init orphanOps := by
  intro h
  have h9 : ∃ s, (∃ rs, run init (orphanOps.take 8) = some (s, rs)) ∧ ¬ NoStale s (.close 0 1) := by
    refine ⟨_, ⟨_, rfl⟩, fun hn => ?_⟩
    exact absurd (hn 0 _ 7 rfl rfl rfl) (by decide +kernel)
  obtain ⟨s, ⟨rs, hr⟩, hn⟩ := h9
  have key : ∀ (a b : List Op) (s s' : St) (rs : List Int), Along NoStale s (a ++ b) → run s a = some (s', rs) → Along NoStale s' b := by
    intro a
    induction a with
    | nil => intro b s s' rs h hr; simp only [run, Option.some.injEq, Prod.mk.injEq] at hr; exact hr.1 ▸ h
    | cons op a ih =>
      intro b s s' rs h hr
      simp only [run] at hr
      split at hr
      · simp at hr
      · rename_i s1 r he
        simp only [Option.map_eq_some_iff] at hr
        obtain ⟨⟨x, y⟩, h1, h2⟩ := hr
        cases h2
        exact ih b s1 _ _ (h.2 s1 r he) h1
  exact hn (key (orphanOps.take 8) (orphanOps.drop 8) init s rs h hr).1

end Verif.FdTab
