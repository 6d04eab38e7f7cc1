import Verif.Netifs
/-! Property C71: the interface cache is a map; its nodes are neither leaked nor freed twice. -/
namespace Verif.Netifs

/-! ## Specification -/
namespace Spec
/-- the map: interface index to (name, type) -/
abbrev Map := Int → Option (List Char × Int)

/-- the name kept: at most 63 characters, empty for NULL -/
def kept (name : Option (List Char)) : List Char := (name.getD []).take 63

/-- effect of a call on the map, given what the call returned -/
def step (m : Map) : Op → Res → Map
  | .update _ true idx _ _, .ok => fun i => if i = idx then none else m i
  | .update _ false idx name type, .ok => fun i => if i = idx then some (kept name, type) else m i
  | .update .., _ => m
  | .fini, _ => fun _ => none

/-- the map after a history of calls with their results -/
def run (m : Map) : List (Op × Res) → Map
  | [] => m
  | (op, r) :: rest => run (step m op r) rest
end Spec

/-- what each call of a history returned (`fini` returns nothing, written ok) -/
def res (s : State) : Op → Res
  | .update m d i n t => (update s m d i n t).2
  | .fini => .ok

def trace (s : State) : List Op → List (Op × Res)
  | [] => []
  | op :: ops => (op, res s op) :: trace (step s op) ops

/-! ## Invariant -/

def cnt (id : Nat) (l : List Node) : Nat := l.countP fun n => n.id = id
/-- sum over the 16 buckets -/
@[irreducible] def total (f : Nat → Nat) : Nat := ((List.range 16).map f).sum
def live (s : State) (id : Nat) : Nat := total (fun i => cnt id (s.hash i)) + cnt id s.free

structure Inv (s : State) : Prop where
  place : ∀ h, ∀ n ∈ s.hash h, 0 ≤ n.netif.index ∧ hashOf n.netif.index = h ∧ n.netif.name.length ≤ 63
  uniq : ∀ h, (s.hash h).Pairwise fun a b => a.netif.index ≠ b.netif.index
  ids : ∀ id, live s id + s.freed.count id = if id < s.fresh then 1 else 0

theorem sum_set (f : Nat → Nat) (h a : Nat) (n : Nat) (hn : h < n) :
    ((List.range n).map fun i => if i = h then a else f i).sum + f h = ((List.range n).map f).sum + a := by
  induction n with
  | zero => omega
  | succ n ih =>
    simp only [List.range_succ, List.map_append, List.map_cons, List.map_nil, List.sum_append, List.sum_cons, List.sum_nil]
    by_cases hh : h = n
    · subst hh
      have : ((List.range h).map fun i => if i = h then a else f i) = (List.range h).map f := by
        apply List.map_congr_left
        intro i hi
        have := List.mem_range.1 hi
        rw [if_neg (by omega)]
      rw [this]; simp; omega
    · have := ih (by omega)
      rw [if_neg (by omega)]
      omega

theorem hashOf_lt (i : Int) : hashOf i < 16 := Nat.mod_lt _ (by omega)

theorem live_set (s : State) (h : Nat) (l : List Node) (id : Nat) (hh : h < 16) :
    total (fun i => cnt id ((setBucket s h l).hash i)) + cnt id (s.hash h) =
      total (fun i => cnt id (s.hash i)) + cnt id l := by
  unfold total
  have := sum_set (fun i => cnt id (s.hash i)) h (cnt id l) 16 hh
  have e : (fun i => cnt id ((setBucket s h l).hash i)) = fun i => if i = h then cnt id l else cnt id (s.hash i) := by
    funext i; simp only [setBucket]; split <;> rfl
  rw [e]; exact this

theorem find_mem {s : State} {idx : Int} {n : Node} (h : find s idx = some n) : n ∈ s.hash (hashOf idx) ∧ n.netif.index = idx := by
  unfold find at h
  have h1 := List.mem_of_find?_eq_some h
  have h2 := List.find?_some h
  exact ⟨h1, by simpa using h2⟩

theorem find_none {s : State} {idx : Int} (h : find s idx = none) : ∀ n ∈ s.hash (hashOf idx), n.netif.index ≠ idx := by
  unfold find at h
  simpa using h

theorem cnt_pos {l : List Node} {n : Node} (h : n ∈ l) : 0 < cnt n.id l := by
  unfold cnt
  exact List.countP_pos_iff.2 ⟨n, h, by simp⟩

theorem cnt_le_live {s : State} {h id : Nat} (hh : h < 16) : cnt id (s.hash h) ≤ live s id := by
  have := live_set s h [] id hh
  unfold live
  have e : cnt id [] = 0 := rfl
  omega

/-- two nodes of one list with the same identity are the same -/
theorem id_inj {l : List Node} (hl : ∀ id, cnt id l ≤ 1) {a b : Node} (ha : a ∈ l) (hb : b ∈ l) (h : a.id = b.id) : a = b := by
  induction l with
  | nil => cases ha
  | cons x l ih =>
    have hl' : ∀ id, cnt id l ≤ 1 := fun id => by
      have := hl id; unfold cnt at this ⊢; rw [List.countP_cons] at this; omega
    rcases List.mem_cons.1 ha with rfl | ha
    · rcases List.mem_cons.1 hb with rfl | hb
      · rfl
      · have := cnt_pos hb
        have h2 := hl a.id
        unfold cnt at this h2
        rw [List.countP_cons] at h2
        rw [← h] at this
        simp at h2; grind
    · rcases List.mem_cons.1 hb with hbx | hb
      · subst hbx
        have := cnt_pos ha
        have h2 := hl b.id
        unfold cnt at this h2
        rw [List.countP_cons] at h2
        rw [h] at this
        simp at h2; grind
      · exact ih hl' ha hb

theorem bucket_ids {s : State} (hi : Inv s) {h : Nat} (hh : h < 16) (id : Nat) : cnt id (s.hash h) ≤ 1 := by
  have := cnt_le_live (s := s) (id := id) hh
  have := hi.ids id
  split at this <;> omega

theorem cnt_map {l : List Node} (f : Node → Node) (hf : ∀ n, (f n).id = n.id) (id : Nat) : cnt id (l.map f) = cnt id l := by
  unfold cnt
  rw [List.countP_map]
  congr 1
  funext n
  simp [hf]

theorem cnt_erase {l : List Node} {n : Node} (h : n ∈ l) (id : Nat) : cnt id (l.erase n) + (if n.id = id then 1 else 0) = cnt id l := by
  induction l with
  | nil => cases h
  | cons x l ih =>
    by_cases hx : x = n
    · subst hx
      rw [List.erase_cons_head]
      simp [cnt, List.countP_cons]
    · rw [List.erase_cons_tail (by simpa using hx)]
      have := ih (by rcases List.mem_cons.1 h with h | h; exact absurd h.symm hx; exact h)
      simp only [cnt, List.countP_cons] at this ⊢
      omega

/-- nodes with distinct indices -/
theorem index_inj : ∀ (l : List Node), l.Pairwise (fun a b => a.netif.index ≠ b.netif.index) →
    ∀ a ∈ l, ∀ b ∈ l, a.netif.index = b.netif.index → a = b := by
  intro l
  induction l with
  | nil => intro _ a ha; cases ha
  | cons x l ih =>
    intro hp a ha b hb hab
    rw [List.pairwise_cons] at hp
    simp only [List.mem_cons] at ha hb
    grind

theorem inv_init : Inv State.init := by
  constructor
  · intro h n hn; cases hn
  · intro h; exact List.Pairwise.nil
  · intro id; simp [State.init, live, cnt, total]; decide

theorem update_spec {s : State} (hi : Inv s) (memOk del : Bool) (idx : Int) (name : Option (List Char)) (type : Int) :
    Inv (update s memOk del idx name type).1 ∧
    (∀ i, 0 ≤ i → (find (update s memOk del idx name type).1 i).map (fun n => (n.netif.name, n.netif.type)) =
      Spec.step (fun j => (find s j).map fun n => (n.netif.name, n.netif.type)) (.update memOk del idx name type)
        (update s memOk del idx name type).2 i) ∧
    ((update s memOk del idx name type).2 = .einval ↔ idx < 0) ∧
    ((update s memOk del idx name type).2 = .enoent ↔ 0 ≤ idx ∧ del = true ∧ find s idx = none) ∧
    ((update s memOk del idx name type).2 = .enomem → memOk = false ∧ del = false ∧ 0 ≤ idx ∧ find s idx = none) := by
  unfold update
  by_cases h0 : idx < 0
  · rw [if_pos h0]
    refine ⟨hi, ?_, by simp [h0], ?_, by simp⟩
    · intro i _; cases del <;> rfl
    · simp; omega
  · rw [if_neg h0]
    have hH := hashOf_lt idx
    dsimp only
    cases hf : find s idx with
    | some n =>
      obtain ⟨hm, hidx⟩ := find_mem hf
      have hb := bucket_ids hi hH
      cases del with
      | true =>
        simp only [if_true]
        refine ⟨⟨?_, ?_, ?_⟩, ?_, by simp [h0], by simp, by simp⟩
        · intro h m hmem
          simp only [setBucket] at hmem
          split at hmem
          · subst h; exact hi.place _ _ (List.mem_of_mem_erase hmem)
          · exact hi.place _ _ hmem
        · intro h
          simp only [setBucket]
          split
          · exact (hi.uniq _).sublist List.erase_sublist
          · exact hi.uniq _
        · intro id
          have h1 := live_set s (hashOf idx) ((s.hash (hashOf idx)).erase n) id hH
          have h2 := cnt_erase hm id
          have h3 := hi.ids id
          unfold live at h3 ⊢
          have h4 : cnt id (s.free ++ [n]) = cnt id s.free + if n.id = id then 1 else 0 := by
            simp only [cnt, List.countP_append, List.countP_singleton]; simp
          show total (fun i => cnt id ((setBucket s (hashOf idx) ((s.hash (hashOf idx)).erase n)).hash i)) + cnt id (s.free ++ [n]) + List.count id s.freed = if id < s.fresh then 1 else 0
          rw [← h3]
          omega
        · intro i hi0
          simp only [Spec.step]
          by_cases hii : i = idx
          · subst hii
            rw [if_pos rfl]
            have : find { setBucket s (hashOf i) ((s.hash (hashOf i)).erase n) with free := s.free ++ [n] } i = none := by
              simp only [find, setBucket, if_true]
              rw [List.find?_eq_none]
              intro m hmm
              have hu := hi.uniq (hashOf i)
              have hnd : (s.hash (hashOf i)).Nodup := hu.imp fun h e => h (by rw [e])
              have hne : m ≠ n := fun e => by
                subst e
                exact (List.Nodup.not_mem_erase hnd) hmm
              intro hc
              have hc : m.netif.index = i := by simpa using hc
              have hm2 := List.mem_of_mem_erase hmm
              have hsym : (s.hash (hashOf i)).Pairwise fun a b => a.netif.index ≠ b.netif.index := hu
              exact hne (index_inj _ hsym m hm2 n hm (by rw [hc, hidx]))
            rw [this]; rfl
          · rw [if_neg hii]
            congr 1
            simp only [find, setBucket]
            split
            · rename_i hh
              rw [hh]
              have : ∀ (l : List Node), n ∈ l → (l.erase n).find? (fun m => decide (m.netif.index = i)) = l.find? (fun m => decide (m.netif.index = i)) := by
                intro l
                induction l with
                | nil => intro h; cases h
                | cons x l ih =>
                  intro hmem
                  by_cases hx : x = n
                  · subst hx
                    simp only [List.erase_cons_head]
                    rw [List.find?_cons_of_neg]
                    simp [hidx]; exact fun h => hii h.symm
                  · rw [List.erase_cons_tail (by simpa using hx)]
                    simp only [List.find?_cons]
                    rcases List.mem_cons.1 hmem with rfl | hmem
                    · exact absurd rfl hx
                    · rw [ih hmem]
              exact this _ hm
            · rfl
      | false =>
        simp only [Bool.false_eq_true, if_false]
        have hname : rename n.netif.name name = Spec.kept name := by
          have hlen := (hi.place _ _ hm).2.2
          cases name with
          | none => rfl
          | some t =>
            simp only [rename, Spec.kept, Option.getD_some]
            split
            · rename_i he
              rw [← he, List.take_of_length_le hlen]
            · rfl
        have hmapid : ∀ m : Node, (if m.id = n.id then (⟨n.id, ⟨n.netif.index, rename n.netif.name name, type⟩⟩ : Node) else m).id = m.id := by
          intro m; split
          · rename_i h; exact h.symm
          · rfl
        have hmapidx : ∀ m ∈ s.hash (hashOf idx), (if m.id = n.id then (⟨n.id, ⟨n.netif.index, rename n.netif.name name, type⟩⟩ : Node) else m).netif.index = m.netif.index := by
          intro m hmm; split
          · rename_i h; rw [id_inj hb hmm hm h]
          · rfl
        refine ⟨⟨?_, ?_, ?_⟩, ?_, by simp [h0], by simp, by simp⟩
        · intro h m hmem
          simp only [setBucket] at hmem
          split at hmem
          · subst h
            obtain ⟨m0, hm0, rfl⟩ := List.mem_map.1 hmem
            have hp := hi.place _ _ hm0
            rw [hmapidx _ hm0]
            refine ⟨hp.1, hp.2.1, ?_⟩
            split
            · show (rename n.netif.name name).length ≤ 63
              rw [hname]; simp [Spec.kept]; omega
            · exact hp.2.2
          · exact hi.place _ _ hmem
        · intro h
          simp only [setBucket]
          split
          · rw [List.pairwise_map]
            refine List.Pairwise.imp_of_mem ?_ (hi.uniq (hashOf idx))
            intro a b ha hb' hab
            rw [hmapidx a ha, hmapidx b hb']; exact hab
          · exact hi.uniq _
        · intro id
          have h1 := live_set s (hashOf idx) ((s.hash (hashOf idx)).map fun m => if m.id = n.id then (⟨n.id, ⟨n.netif.index, rename n.netif.name name, type⟩⟩ : Node) else m) id hH
          rw [cnt_map _ hmapid] at h1
          have h3 := hi.ids id
          unfold live at h3 ⊢
          show total (fun i => cnt id ((setBucket s (hashOf idx) ((s.hash (hashOf idx)).map fun m => if m.id = n.id then (⟨n.id, ⟨n.netif.index, rename n.netif.name name, type⟩⟩ : Node) else m)).hash i)) + cnt id s.free + List.count id s.freed = if id < s.fresh then 1 else 0
          rw [← h3]
          omega
        · intro i hi0
          simp only [Spec.step]
          have gen : ∀ (l : List Node), (∀ m ∈ l, m ∈ s.hash (hashOf idx)) →
              ((l.map fun m => if m.id = n.id then (⟨n.id, ⟨n.netif.index, rename n.netif.name name, type⟩⟩ : Node) else m).find? fun m => decide (m.netif.index = i)) =
              (l.find? fun m => decide (m.netif.index = i)).map fun m => if m.id = n.id then (⟨n.id, ⟨n.netif.index, rename n.netif.name name, type⟩⟩ : Node) else m := by
            intro l
            induction l with
            | nil => intro _; rfl
            | cons x l ih =>
              intro hall
              simp only [List.map_cons, List.find?_cons]
              rw [hmapidx x (hall x (List.mem_cons_self ..))]
              split
              · rfl
              · exact ih fun m hm => hall m (List.mem_cons_of_mem _ hm)
          by_cases hii : i = idx
          · subst hii
            rw [if_pos rfl]
            have : find (setBucket s (hashOf i) ((s.hash (hashOf i)).map fun m => if m.id = n.id then (⟨n.id, ⟨n.netif.index, rename n.netif.name name, type⟩⟩ : Node) else m)) i
                = some ⟨n.id, ⟨n.netif.index, rename n.netif.name name, type⟩⟩ := by
              simp only [find, setBucket, if_true]
              rw [gen _ fun _ h => h]
              have : (s.hash (hashOf i)).find? (fun m => decide (m.netif.index = i)) = some n := hf
              rw [this]; simp
            rw [this]
            simp [hname]
          · rw [if_neg hii]
            simp only [find, setBucket]
            split
            · rename_i hh
              rw [hh, gen _ fun _ h => h]
              cases hfi : (s.hash (hashOf idx)).find? (fun m => decide (m.netif.index = i)) with
              | none => rfl
              | some m =>
                have hmi : m.netif.index = i := by simpa using List.find?_some hfi
                have hmm := List.mem_of_find?_eq_some hfi
                have : m.id ≠ n.id := fun e => hii (by rw [← hmi, id_inj hb hmm hm e, hidx])
                simp [this]
            · rfl
    | none =>
      cases del with
      | true =>
        simp only [if_true]
        refine ⟨hi, ?_, by simp [h0], by simp; omega, by simp⟩
        intro i _; rfl
      | false =>
        have hno := find_none hf
        have keptEq : storedName name = Spec.kept name := by cases name <;> rfl
        have common : ∀ (id : Nat) (fr : List Node) (fresh : Nat),
            (∀ id', (total (fun i => cnt id' ((setBucket s (hashOf idx) (s.hash (hashOf idx) ++ [⟨id, ⟨idx, storedName name, type⟩⟩])).hash i)) + cnt id' fr) + s.freed.count id' = if id' < fresh then 1 else 0) →
            Inv { setBucket s (hashOf idx) (s.hash (hashOf idx) ++ [⟨id, ⟨idx, storedName name, type⟩⟩]) with free := fr, fresh := fresh } ∧
            (∀ i, 0 ≤ i → (find { setBucket s (hashOf idx) (s.hash (hashOf idx) ++ [⟨id, ⟨idx, storedName name, type⟩⟩]) with free := fr, fresh := fresh } i).map (fun n => (n.netif.name, n.netif.type)) =
              if i = idx then some (Spec.kept name, type) else (find s i).map fun n => (n.netif.name, n.netif.type)) := by
          intro id fr fresh hids
          refine ⟨⟨?_, ?_, hids⟩, ?_⟩
          · intro h m hmem
            simp only [setBucket] at hmem
            split at hmem
            · subst h
              rcases List.mem_append.1 hmem with hmem | hmem
              · exact hi.place _ _ hmem
              · simp only [List.mem_singleton] at hmem; subst hmem
                refine ⟨by show 0 ≤ idx; omega, rfl, ?_⟩
                show (storedName name).length ≤ 63
                rw [keptEq]; simp [Spec.kept]; omega
            · exact hi.place _ _ hmem
          · intro h
            simp only [setBucket]
            split
            · rw [List.pairwise_append]
              refine ⟨hi.uniq _, by simp, ?_⟩
              intro a ha b hb
              simp only [List.mem_singleton] at hb; subst hb
              exact hno a ha
            · exact hi.uniq _
          · intro i hi0
            simp only [find, setBucket]
            by_cases hii : i = idx
            · subst hii
              have : (s.hash (hashOf i)).find? (fun m => decide (m.netif.index = i)) = none := hf
              simp [List.find?_append, this, keptEq]
            · rw [if_neg hii]
              split
              · rename_i hh
                rw [hh, List.find?_append]
                have : ¬ idx = i := fun e => hii e.symm
                simp [this]
              · rfl
        cases hfree : s.free with
        | cons n rest =>
          simp only [Bool.false_eq_true, if_false]
          have := common n.id rest s.fresh ?_
          · exact ⟨this.1, this.2, by simp [h0], by simp, by simp⟩
          · intro id'
            have h1 := live_set s (hashOf idx) (s.hash (hashOf idx) ++ [⟨n.id, ⟨idx, storedName name, type⟩⟩]) id' hH
            have h3 := hi.ids id'
            unfold live at h3
            rw [hfree] at h3
            rw [← h3]
            have h4 : cnt id' (s.hash (hashOf idx) ++ [⟨n.id, ⟨idx, storedName name, type⟩⟩]) = cnt id' (s.hash (hashOf idx)) + if n.id = id' then 1 else 0 := by
              simp only [cnt, List.countP_append, List.countP_singleton]; simp
            have h5 : cnt id' (n :: rest) = cnt id' rest + if n.id = id' then 1 else 0 := by
              simp only [cnt, List.countP_cons]; simp
            omega
        | nil =>
          cases memOk with
          | false =>
            simp only [Bool.false_eq_true, if_false]
            refine ⟨hi, ?_, by simp [h0], by simp, by simp; omega⟩
            intro i _; rfl
          | true =>
            simp only [Bool.false_eq_true, if_false, if_true]
            have := common s.fresh s.free (s.fresh + 1) ?_
            · exact ⟨this.1, this.2, by simp [h0], by simp, by simp⟩
            · intro id'
              have h1 := live_set s (hashOf idx) (s.hash (hashOf idx) ++ [⟨s.fresh, ⟨idx, storedName name, type⟩⟩]) id' hH
              have h3 := hi.ids id'
              unfold live at h3
              have h4 : cnt id' (s.hash (hashOf idx) ++ [⟨s.fresh, ⟨idx, storedName name, type⟩⟩]) = cnt id' (s.hash (hashOf idx)) + if s.fresh = id' then 1 else 0 := by
                simp only [cnt, List.countP_append, List.countP_singleton]; simp
              split at h3 <;> split at h4 <;> split <;> omega

theorem fini_spec {s : State} (hi : Inv s) : Inv (fini s) ∧ (∀ i, find (fini s) i = none) := by
  refine ⟨⟨?_, ?_, ?_⟩, fun i => rfl⟩
  · intro h n hn; cases hn
  · intro h; exact List.Pairwise.nil
  · intro id
    have h3 := hi.ids id
    unfold live at h3 ⊢
    simp only [fini]
    have e1 : total (fun i => cnt id ((fun _ => [] : Nat → List Node) i)) = 0 := by
      unfold total; simp [cnt]; decide
    have e2 : ∀ l : List Node, (l.map Node.id).count id = cnt id l := by
      intro l; simp only [cnt, List.count, List.countP_map]; congr 1
    have e3 : ∀ l : List Nat, cnt id (l.flatMap s.hash) = (l.map fun i => cnt id (s.hash i)).sum := by
      intro l
      induction l with
      | nil => rfl
      | cons x l ih =>
        rw [List.flatMap_cons, List.map_cons, List.sum_cons, ← ih]
        simp only [cnt, List.countP_append]
    rw [List.count_append, e2]
    have e4 : cnt id (List.flatMap s.hash (List.range 16) ++ s.free) = cnt id (List.flatMap s.hash (List.range 16)) + cnt id s.free := by
      simp [cnt, List.countP_append]
    rw [e4, e3]
    have e5 : ((List.range 16).map fun i => cnt id (s.hash i)).sum = total fun i => cnt id (s.hash i) := by unfold total; rfl
    rw [e5]
    have e0 : cnt id [] = 0 := rfl
    have e6 : (if id < (fini s).fresh then 1 else 0) = if id < s.fresh then 1 else 0 := rfl
    refine Eq.trans ?_ (h3.trans e6.symm)
    rw [e0]
    have e1' : total (fun _ : Nat => 0) = 0 := e1
    rw [e1']
    omega

theorem inv_run (ops : List Op) : ∀ s, Inv s → Inv (run s ops) := by
  induction ops with
  | nil => intro s h; exact h
  | cons op ops ih =>
    intro s h
    refine ih _ ?_
    cases op with
    | update m d i n t => exact (update_spec h m d i n t).1
    | fini => exact (fini_spec h).1

/-! ## C71 -/

/-- the map seen through the API -/
def lookup (s : State) : Spec.Map := fun i => (netifByIndex s i).map fun n => (n.name, n.type)

theorem lookup_step {s : State} (hi : Inv s) (op : Op) : lookup (step s op) = Spec.step (lookup s) op (res s op) := by
  funext i
  have hl : ∀ t : State, lookup t i = if i < 0 then none else (find t i).map fun n => (n.netif.name, n.netif.type) := by
    intro t; simp only [lookup, netifByIndex]; split
    · rfl
    · simp [Option.map_map]; rfl
  cases op with
  | fini => rw [hl]; simp [step, Spec.step, (fini_spec hi).2]
  | update m d idx n t =>
    have hu := update_spec hi m d idx n t
    by_cases h : i < 0
    · have hr : ∀ r, r = (update s m d idx n t).2 → (r = .ok → ¬ idx < 0) := fun r hr h => by
        intro hneg; rw [hu.2.2.1.2 hneg] at hr; rw [hr] at h; cases h
      rw [hl, if_pos h]
      simp only [res]
      have hni : (update s m d idx n t).2 = .ok → i ≠ idx := fun e he => (hr _ rfl e) (he ▸ h)
      have h0 : lookup s i = none := by rw [hl, if_pos h]
      cases hres : (update s m d idx n t).2 with
      | ok => cases d <;> simp [Spec.step, hni hres, h0]
      | einval => cases d <;> simp [Spec.step, h0]
      | enoent => cases d <;> simp [Spec.step, h0]
      | enomem => cases d <;> simp [Spec.step, h0]
    · rw [hl, if_neg h]
      have := hu.2.1 i (by omega)
      simp only [step, res]
      rw [this]
      cases hres : (update s m d idx n t).2 <;> cases d <;> simp [Spec.step, hl, if_neg h]

/-- C71. After any history of updates, deletions and shutdowns the cache is exactly the map the successful
    calls describe; and the next call fails only for a negative index (EINVAL), for deleting an unknown
    index (ENOENT) or when memory is exhausted while adding a new index. -/
theorem C71_cache_is_a_map (ops : List Op) :
    let s := run State.init ops
    lookup s = Spec.run (fun _ => none) (trace State.init ops) ∧
    ∀ memOk del idx name type,
      ((update s memOk del idx name type).2 = .einval ↔ idx < 0) ∧
      ((update s memOk del idx name type).2 = .enoent ↔ 0 ≤ idx ∧ del = true ∧ lookup s idx = none) ∧
      ((update s memOk del idx name type).2 = .enomem → memOk = false ∧ del = false ∧ lookup s idx = none) := by
  intro s
  have hs : Inv s := inv_run ops _ inv_init
  constructor
  · have gen : ∀ (ops : List Op) (t : State), Inv t → ∀ m, lookup t = m → lookup (run t ops) = Spec.run m (trace t ops) := by
      intro ops
      induction ops with
      | nil => intro t _ m h; exact h
      | cons op ops ih =>
        intro t ht m h
        refine ih (step t op) (inv_run [op] t ht) _ ?_
        rw [lookup_step ht, h]
    exact gen ops _ inv_init _ (by funext i; simp [lookup, netifByIndex, find, State.init])
  · intro memOk del idx name type
    have hu := (update_spec hs memOk del idx name type).2.2
    have hl : 0 ≤ idx → (lookup s idx = none ↔ find s idx = none) := by
      intro h
      simp only [lookup, netifByIndex]
      rw [if_neg (by omega)]
      cases find s idx <;> simp
    refine ⟨hu.1, ?_, ?_⟩
    · rw [hu.2.1]
      constructor
      · rintro ⟨a, b, c⟩; exact ⟨a, b, (hl a).2 c⟩
      · rintro ⟨a, b, c⟩; exact ⟨a, b, (hl a).1 c⟩
    · intro h
      obtain ⟨a, b, c, d⟩ := hu.2.2 h
      exact ⟨a, b, (hl c).2 d⟩

/-- C71 (memory). After any history followed by the shutdown, every node ever allocated has been freed
    exactly once and nothing else has been freed. -/
theorem C71_no_leak (ops : List Op) :
    let s := run State.init (ops ++ [.fini])
    ∀ id, s.freed.count id = if id < s.fresh then 1 else 0 := by
  intro s id
  have e : s = fini (run State.init ops) := by simp [s, run, List.foldl_append, step]
  have h := (fini_spec (inv_run ops _ inv_init)).1.ids id
  rw [e]
  rw [← h]
  have e1 : total (fun _ : Nat => 0) = 0 := by unfold total; decide
  simp [live, fini, cnt, e1]

/-- two interfaces in one hash bucket, one renamed, one deleted and added again (its node is reused) -/
example :
    let s := run State.init [.update true false 3 (some "eth0".toList) 1, .update true false 19 (some "wlan0".toList) 1,
      .update true true 3 none 0, .update false false 35 none 7, .update true false 19 (some "wlan1".toList) 1]
    netifByIndex s 19 = some ⟨19, "wlan1".toList, 1⟩ ∧ netifByIndex s 3 = none ∧
    netifByIndex s 35 = some ⟨35, [], 7⟩ ∧ s.fresh = 2 := by
  decide +kernel

end Verif.Netifs
