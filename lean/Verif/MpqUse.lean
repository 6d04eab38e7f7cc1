import Verif.MpqInv

/-! Reference counting and destruction stages of the queue model. -/

namespace Verif.Mpq

/-- Sum of a weight over a list. Models no code of its own. -/
def tot {α : Type} (w : α → Nat) (l : List α) : Nat := (l.map w).sum

theorem tot_append {α : Type} (w : α → Nat) (l : List α) (a : α) : tot w (l ++ [a]) = tot w l + w a := by
  simp [tot]

theorem tot_set {α : Type} (w : α → Nat) {l : List α} {i : Nat} {a : α} (h : l[i]? = some a) (b : α) :
    tot w (l.set i b) + w a = tot w l + w b := by
  induction l generalizing i with
  | nil => simp at h
  | cons x xs ih =>
    cases i with
    | zero => simp at h; subst h; simp [tot]; omega
    | succ i =>
      simp at h
      have := ih h
      simp only [tot, List.set_cons_succ, List.map_cons, List.sum_cons] at this ⊢
      omega

theorem tot_le {α : Type} (w : α → Nat) {l : List α} {i : Nat} {a : α} (h : l[i]? = some a) : w a ≤ tot w l := by
  induction l generalizing i with
  | nil => simp at h
  | cons x xs ih =>
    cases i with
    | zero => simp at h; subst h; simp [tot]
    | succ i =>
      simp at h
      have := ih h
      simp only [tot, List.map_cons, List.sum_cons] at this ⊢
      omega

theorem tot_map {α : Type} (w : α → Nat) (f : α → α) (l : List α) (h : ∀ a ∈ l, w (f a) = w a) :
    tot w (l.map f) = tot w l := by
  induction l with
  | nil => rfl
  | cons x xs ih =>
    simp only [tot, List.map_cons, List.sum_cons] at ih ⊢
    rw [ih (fun a ha => h a (by simp [ha])), h x (by simp)]

theorem tot_zero {α : Type} {w : α → Nat} {l : List α} : tot w l = 0 ↔ ∀ a ∈ l, w a = 0 := by
  induction l with
  | nil => simp [tot]
  | cons x xs ih => simp only [tot, List.map_cons, List.sum_cons, List.mem_cons, forall_eq_or_imp, Nat.add_eq_zero_iff] at ih ⊢; rw [ih]

theorem get_set {α : Type} {l : List α} {i j : Nat} {b x : α} (h : (l.set i b)[j]? = some x) :
    (j = i ∧ x = b) ∨ (j ≠ i ∧ l[j]? = some x) := by
  rw [List.getElem?_set] at h
  grind

theorem get_append {α : Type} {l : List α} {j : Nat} {b x : α} (h : (l ++ [b])[j]? = some x) :
    (j = l.length ∧ x = b) ∨ (j < l.length ∧ l[j]? = some x) := by
  grind

/-- Does the thread's library call hold a reference to queue `i`?. Models no code of its own. -/
def opOn (i : Nat) : Op → Nat
  | .idle => 0
  | .got q _ => if q = i then 1 else 0
  | .asleep q _ => if q = i then 1 else 0
  | .woken q _ => if q = i then 1 else 0
  | .syncWait q _ _ => if q = i then 1 else 0
  | .put q _ _ => if q = i then 1 else 0
  | .dgot q => if q = i then 1 else 0
  | .dterm q => if q = i then 1 else 0

/-- For the statements and proofs about the models imported; models no code of its own. -/
def holds (i : Nat) (th : Thr) : Nat := opOn i th.op

/-- For the statements and proofs about the models imported; models no code of its own. -/
def StOK (q : Q) : Prop :=
  (q.stage = .uninst ∨ q.stage = .drain ∨ q.stage = .fini ∨ q.stage = .dead → q.installed = false) ∧
  (q.stage = .drain ∨ q.stage = .fini ∨ q.stage = .dead → q.usage = 1) ∧
  (q.stage = .fini ∨ q.stage = .dead → q.pend = [] ∧ q.phase = .poll) ∧
  (q.phase = .poll → q.batch = [])

/-- For the statements and proofs about the models imported; models no code of its own. -/
structure U (s : St) : Prop where
  use : ∀ (i : Nat) (q : Q), s.qs[i]? = some q → q.usage = 1 + tot (holds i) s.thr
  ran : ∀ i : Nat, s.qs.length ≤ i → tot (holds i) s.thr = 0
  st : ∀ (i : Nat) (q : Q), s.qs[i]? = some q → StOK q

theorem holds_wakeOn (i : Nat) (o : Option Nat) (th : Thr) : holds i (wakeOn o th) = holds i th := by
  unfold wakeOn
  split
  · split
    · rename_i he _; simp [holds, he, opOn]
    · rfl
  · rfl

theorem lt_of_get {α : Type} {l : List α} {i : Nat} {a : α} (h : l[i]? = some a) : i < l.length := by
  rw [List.getElem?_eq_some_iff] at h; exact h.1

/-- Generic preservation: one queue and one thread replaced. -/
theorem U_upd {s : St} (hu : U s) {qi t : Nat} {q q' : Q} {th th' : Thr} (hq : s.qs[qi]? = some q)
    (ht : s.thr[t]? = some th)
    (hn : ∀ i, i ≠ qi → holds i th' = holds i th)
    (hqi : q'.usage + holds qi th = q.usage + holds qi th')
    (hst : StOK q') (s' : St) (hqs : s'.qs = s.qs.set qi q') (hth : s'.thr = s.thr.set t th') : U s' := by
  constructor
  · intro i x hx
    rw [hqs] at hx
    rw [hth]
    have h1 := tot_set (holds i) ht th'
    rcases get_set hx with ⟨rfl, rfl⟩ | ⟨hne, hx⟩
    · have := hu.use i q hq
      omega
    · have := hu.use i x hx
      have := hn i hne
      omega
  · intro i hi
    rw [hqs, List.length_set] at hi
    rw [hth]
    have h1 := tot_set (holds i) ht th'
    have := hu.ran i hi
    have := lt_of_get hq
    have := hn i (by omega)
    omega
  · intro i x hx
    rw [hqs] at hx
    rcases get_set hx with ⟨rfl, rfl⟩ | ⟨hne, hx⟩
    · exact hst
    · exact hu.st i x hx

theorem set_self {α : Type} {l : List α} {i : Nat} {a : α} (h : l[i]? = some a) : l.set i a = l := by
  apply List.ext_getElem?
  intro j
  rw [List.getElem?_set]
  grind

theorem U_tr {s s' : St} (hu : U s) (h : Tr s s') : U s' := by
  cases h with
  | skip => exact hu
  | spawn =>
    refine ⟨fun i q hq => ?_, fun i hi => ?_, hu.st⟩
    · have := hu.use i q hq
      simp [tot_append, holds, opOn] at this ⊢; omega
    · have := hu.ran i hi
      simp [tot_append, holds, opOn] at this ⊢; omega
  | create m nb hm =>
    refine ⟨fun i q hq => ?_, fun i hi => ?_, fun i q hq => ?_⟩
    · rcases get_append hq with ⟨rfl, rfl⟩ | ⟨hlt, hq⟩
      · have := hu.ran s.qs.length (Nat.le_refl _)
        simp [tot_append, holds, opOn] at this ⊢; omega
      · have := hu.use i q hq
        simp [tot_append, holds, opOn] at this ⊢; omega
    · simp at hi
      have := hu.ran i (by omega)
      simp [tot_append, holds, opOn] at this ⊢; omega
    · rcases get_append hq with ⟨rfl, rfl⟩ | ⟨hlt, hq⟩
      · simp [StOK]
      · exact hu.st i q hq
  | startErr t qi th sy dn rc ht hrc => exact ⟨hu.use, hu.ran, hu.st⟩
  | startInl t qi th ht ho hthis ha =>
    refine ⟨fun i q hq => ?_, fun i hi => ?_, hu.st⟩
    · have := hu.use i q hq
      have h1 := tot_set (holds i) ht { th with inl := s.next :: th.inl }
      simp only [holds] at *; omega
    · have := hu.ran i hi
      have h1 := tot_set (holds i) ht { th with inl := s.next :: th.inl }
      simp only [holds] at *; omega
  | startGot t qi th q fo op ht ho hq hi hn hc hnf hs hsd hself hop =>
    have hstk := hu.st qi q hq
    refine U_upd hu hq ht (q' := { q with usage := q.usage + 1 }) (th' := { th with op := op }) ?_ ?_ ?_ _ rfl rfl
    · intro i hne
      rcases hop with rfl | ⟨rc, _, _, rfl⟩ <;> simp [holds, ho, opOn] <;> omega
    · rcases hop with rfl | ⟨rc, _, _, rfl⟩ <;> simp [holds, ho, opOn]
    · unfold StOK at *; simp only; grind
  | addOk t qi th q fo ht ho hq hg =>
    have hstk := hu.st qi q hq
    have huse := hu.use qi q hq
    have hle := tot_le (holds qi) ht
    have h1 : holds qi th = 1 := by rcases ho with ho | ho <;> simp [holds, ho, opOn]
    refine U_upd hu hq ht (q' := { q with pend := q.pend ++ [fo], count := q.count + 1 })
      (th' := { th with op := if fo.sync.isSome then .syncWait qi fo false else .put qi fo .ok }) ?_ ?_ ?_ _ rfl rfl
    · intro i hne
      rcases ho with ho | ho <;> split <;> simp [holds, ho, opOn]
    · rw [h1]; split <;> simp [holds, opOn]
    · unfold StOK at *; simp only; grind
  | addErr t qi th q fo rc ht ho hq hrc hw hei hwk =>
    refine U_upd hu hq ht (q' := q) (th' := { th with op := .put qi fo rc }) ?_ ?_ (hu.st qi q hq) _ (set_self hq).symm rfl
    · intro i hne
      rcases ho with ho | ho <;> simp [holds, ho, opOn]
    · rcases ho with ho | ho <;> simp [holds, ho, opOn]
  | addSleep t qi th q fo ht ho hq hw hnb =>
    refine U_upd hu hq ht (q' := q) (th' := { th with op := .asleep qi fo }) ?_ ?_ (hu.st qi q hq) _ (set_self hq).symm rfl
    · intro i hne
      rcases ho with ho | ho <;> simp [holds, ho, opOn]
    · rcases ho with ho | ho <;> simp [holds, ho, opOn]
  | wake t qi th fo ht ho =>
    refine ⟨fun i q hq => ?_, fun i hi => ?_, hu.st⟩
    · have := hu.use i q hq
      have h1 := tot_set (holds i) ht { th with op := .woken qi fo }
      simp only [holds, ho, opOn] at *; omega
    · have := hu.ran i hi
      have h1 := tot_set (holds i) ht { th with op := .woken qi fo }
      simp only [holds, ho, opOn] at *; omega
  | syncRet t qi th fo ht ho =>
    refine ⟨fun i q hq => ?_, fun i hi => ?_, hu.st⟩
    · have := hu.use i q hq
      have h1 := tot_set (holds i) ht { th with op := .put qi fo .ok }
      simp only [holds, ho, opOn] at *; omega
    · have := hu.ran i hi
      have h1 := tot_set (holds i) ht { th with op := .put qi fo .ok }
      simp only [holds, ho, opOn] at *; omega
  | put t qi th q fo rc ht ho hq =>
    have hstk := hu.st qi q hq
    have huse := hu.use qi q hq
    have hle := tot_le (holds qi) ht
    have h1 : holds qi th = 1 := by simp [holds, ho, opOn]
    refine U_upd hu hq ht (q' := { q with usage := q.usage - 1 }) (th' := { th with op := .idle }) ?_ ?_ ?_ _ rfl rfl
    · intro i hne; simp [holds, ho, opOn]; omega
    · rw [h1]; simp [holds, opOn]; omega
    · unfold StOK at *; simp only; grind
  | inlRet t qi n rest th ht ho hl hthis =>
    refine ⟨fun i q hq => ?_, fun i hi => ?_, hu.st⟩
    · have := hu.use i q hq
      have h1 := tot_set (holds i) ht { th with inl := rest }
      simp only [holds] at *; omega
    · have := hu.ran i hi
      have h1 := tot_set (holds i) ht { th with inl := rest }
      simp only [holds] at *; omega
  | dgot t qi th q ht ho hq hi =>
    have hstk := hu.st qi q hq
    refine U_upd hu hq ht (q' := { q with usage := q.usage + 1 }) (th' := { th with op := .dgot qi }) ?_ ?_ ?_ _ rfl rfl
    · intro i hne; simp [holds, ho, opOn]; omega
    · simp [holds, ho, opOn]
    · unfold StOK at *; simp only; grind
  | dset t qi th q ht ho hq =>
    have hstk := hu.st qi q hq
    refine U_upd hu hq ht (q' := { q with term := true }) (th' := { th with op := .dterm qi }) ?_ ?_ ?_ _ rfl rfl
    · intro i hne; simp [holds, ho, opOn]
    · simp [holds, ho, opOn]
    · unfold StOK at *; simp only; grind
  | dput t qi th q ht ho hq =>
    have hstk := hu.st qi q hq
    have huse := hu.use qi q hq
    have hm : ∀ i, tot (holds i) (s.thr.map (wakeOn th.this)) = tot (holds i) s.thr :=
      fun i => tot_map _ _ _ fun a _ => holds_wakeOn i _ a
    have hu1 : U { s with thr := s.thr.map (wakeOn th.this) } :=
      ⟨fun i q hq => by rw [hm]; exact hu.use i q hq, fun i hi => by rw [hm]; exact hu.ran i hi, hu.st⟩
    have ht1 : (s.thr.map (wakeOn th.this))[t]? = some th := by
      simp [ht, wakeOn, ho]
    have hle := tot_le (holds qi) ht
    have h1 : holds qi th = 1 := by simp [holds, ho, opOn]
    refine U_upd hu1 (t := t) (th := th) hq ht1 (q' := { q with usage := q.usage - 1 }) (th' := { th with op := .idle }) ?_ ?_ ?_ _ rfl rfl
    · intro i hne; simp [holds, ho, opOn]; omega
    · rw [h1]; simp [holds, opOn]; omega
    · unfold StOK at *; simp only; grind
  | own qi q q' th es hq ht ho hl hk hc =>
    have hstk := hu.st qi q hq
    have huse := hu.use qi q hq
    refine U_upd hu hq ht (q' := q') (th' := th) (fun _ _ => rfl) (by omega) ?_ _ rfl (set_self ht).symm
    unfold StOK at *
    rcases hc with h | ⟨_, _, _, h⟩ | h | ⟨_, _, h⟩ | ⟨_, _, h⟩ | ⟨_, _, h⟩ | ⟨_, h⟩ | h | h | h | h | h <;> grind
  | doneQ qi d q dq th fo c hq ht ho hl hp hd hdq hdi hc =>
    have hstk := hu.st qi q hq
    have hu1 : U { s with qs := s.qs.set qi { q with phase := .fin fo } } := by
      refine U_upd hu hq ht (q' := { q with phase := .fin fo }) (th' := th) (fun _ _ => rfl) (by simp) ?_ _ rfl (set_self ht).symm
      unfold StOK at *; simp only; grind
    have hd1 : ({ s with qs := s.qs.set qi { q with phase := .fin fo } } : St).qs[d]? =
        some (if d = qi then { q with phase := .fin fo } else dq) := by
      simp only [List.getElem?_set]
      by_cases hdi : d = qi
      · subst hdi; simp [lt_of_get hq]
      · rw [if_neg (fun e => hdi e.symm), hdq, if_neg hdi]
    have hst2 := hu1.st d _ hd1
    refine U_upd hu1 hd1 (t := q.thr) (th := th) ht
      (q' := if d = qi then { q with phase := .fin fo, usage := q.usage + 1 } else { dq with usage := dq.usage + 1 })
      (th' := { th with op := .got d c }) ?_ ?_ ?_ _ rfl rfl
    · intro i hne; simp [holds, ho, opOn]; omega
    · split <;> simp [holds, ho, opOn]
    · revert hst2
      split
      · rename_i e; subst e; rw [hdq] at hq; cases hq
        unfold StOK at *; simp only; grind
      · unfold StOK at *; simp only; grind
  | fin qi q th fo thr' bad' hq ht ho hl hp hc =>
    have hstk := hu.st qi q hq
    have hok : StOK { q with phase := .sig, count := q.count - 1 } := by unfold StOK at *; simp only; grind
    rcases hc with ⟨_, rfl, _⟩ | ⟨t, tt, hs, htt, hop, rfl, _⟩ | ⟨t, hs, _, rfl, _⟩
    · exact U_upd hu hq ht (q' := { q with phase := .sig, count := q.count - 1 }) (th' := th) (fun _ _ => rfl) (by simp) hok _ rfl (set_self ht).symm
    · refine U_upd hu hq htt (q' := { q with phase := .sig, count := q.count - 1 }) (th' := { tt with op := .syncWait qi fo true }) ?_ ?_ hok _ rfl rfl
      · intro i hne; simp [holds, hop, opOn]
      · simp [holds, hop, opOn]
    · exact U_upd hu hq ht (q' := { q with phase := .sig, count := q.count - 1 }) (th' := th) (fun _ _ => rfl) (by simp) hok _ rfl (set_self ht).symm
  | sig qi q th thr' hq ht ho hl hp hc =>
    have hstk := hu.st qi q hq
    have hok : StOK { q with phase := .next } := by unfold StOK at *; simp only; grind
    rcases hc with ⟨_, rfl⟩ | ⟨w, tw, fo, htw, hop, rfl⟩
    · exact U_upd hu hq ht (q' := { q with phase := .next }) (th' := th) (fun _ _ => rfl) (by simp) hok _ rfl (set_self ht).symm
    · refine U_upd hu hq htw (q' := { q with phase := .next }) (th' := { tw with op := .woken qi fo }) ?_ ?_ hok _ rfl rfl
      · intro i hne; simp [holds, hop, opOn]
      · simp [holds, hop, opOn]

theorem U_reach : ∀ s, Reachable s → U s :=
  reach_induction ⟨by simp [init], by simp [init, tot], by simp [init]⟩ fun _ _ hu h => U_tr hu h

end Verif.Mpq
