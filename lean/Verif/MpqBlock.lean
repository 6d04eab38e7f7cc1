import Verif.MpqCause

/-! Every event belongs to the call that was made; blocked producers. -/

namespace Verif.Mpq

/-- For the statements and proofs about the models imported; models no code of its own. -/
structure Cl (s : St) : Prop where
  t : ∀ (t : Nat) (th : Thr), s.thr[t]? = some th → ∀ i fo, opFo th.op = some fo → opOn i th.op = 1 → fo.compl = false →
    Ev.called t i fo.n fo.sync.isSome fo.done ∈ s.log
  n : ∀ (t : Nat) (th : Thr), s.thr[t]? = some th → ∀ n ∈ th.inl, ∀ i, th.this = some i → Ev.called t i n true none ∈ s.log
  q : ∀ (i : Nat) (q : Q), s.qs[i]? = some q → ∀ fo ∈ q.outstanding, fo.compl = false →
    ∃ t, Ev.called t i fo.n fo.sync.isSome fo.done ∈ s.log

/-- What must have been asked for before event `e`. Models no code of its own. -/
def Asked (l : List Ev) : Ev → Prop
  | .queued q n false => ∃ t sy d, Ev.called t q n sy d ∈ l
  | .invoked q n false _ d => ∃ t sy, Ev.called t q n sy d ∈ l
  | .inlined q n => ∃ t, Ev.called t q n true none ∈ l
  | .result t q n sy _ => ∃ d, Ev.called t q n sy d ∈ l
  | _ => True

/-- For the statements and proofs about the models imported; models no code of its own. -/
def AskedAll (log : List Ev) : Prop := ∀ l1 e l2, log = l1 ++ e :: l2 → Asked l1 e

theorem asked_snoc {log : List Ev} (h : AskedAll log) {e : Ev} (he : Asked log e) : AskedAll (log ++ [e]) := by
  intro l1 e' l2 heq
  rcases List.eq_nil_or_concat l2 with rfl | ⟨l2', x, rfl⟩
  · have := List.append_inj' heq rfl
    obtain ⟨rfl, h2⟩ := this
    simp at h2; subst h2; exact he
  · have h3 : log ++ [e] = (l1 ++ e' :: l2') ++ [x] := by simp [heq]
    have := List.append_inj' h3 rfl
    exact h l1 e' l2' this.1

/-- A thread keeps or loses its function object; queues keep or lose theirs. -/
theorem Cl_upd {s : St} (hc : Cl s) {t : Nat} {th th' : Thr} (ht : s.thr[t]? = some th)
    (h1 : ∀ i fo, opFo th'.op = some fo → opOn i th'.op = 1 → fo.compl = true ∨ (opFo th.op = some fo ∧ opOn i th.op = 1))
    (h2 : th'.this = th.this ∧ ∀ n ∈ th'.inl, n ∈ th.inl)
    (es : List Ev) (s' : St)
    (hq : ∀ (i : Nat) (q' : Q), s'.qs[i]? = some q' → ∀ fo ∈ q'.outstanding,
      (∃ q, s.qs[i]? = some q ∧ fo ∈ q.outstanding) ∨ (opFo th.op = some fo ∧ opOn i th.op = 1))
    (hth : s'.thr = s.thr.set t th') (hlog : s'.log = s.log ++ es) : Cl s' := by
  constructor
  · intro u x hx i fo hf ho hcc
    rw [hlog]; apply List.mem_append_left
    rw [hth] at hx
    rcases get_set hx with ⟨rfl, rfl⟩ | ⟨hne, hx⟩
    · rcases h1 i fo hf ho with h | h
      · rw [h] at hcc; simp at hcc
      · exact hc.t u th ht i fo h.1 h.2 hcc
    · exact hc.t u x hx i fo hf ho hcc
  · intro u x hx n hn i hi
    rw [hlog]; apply List.mem_append_left
    rw [hth] at hx
    rcases get_set hx with ⟨rfl, rfl⟩ | ⟨hne, hx⟩
    · exact hc.n u th ht n (h2.2 n hn) i (by rw [← h2.1]; exact hi)
    · exact hc.n u x hx n hn i hi
  · intro i q' hq' fo hf hcc
    rw [hlog]
    rcases hq i q' hq' fo hf with ⟨q, hq1, hf1⟩ | ⟨h3, h4⟩
    · obtain ⟨u, hu⟩ := hc.q i q hq1 fo hf1 hcc
      exact ⟨u, List.mem_append_left _ hu⟩
    · exact ⟨t, List.mem_append_left _ (hc.t t th ht i fo h3 h4 hcc)⟩

theorem Cl_mono {s : St} (hc : Cl s) (es : List Ev) (s' : St) (hq : s'.qs = s.qs) (ht : s'.thr = s.thr) (hlog : s'.log = s.log ++ es) : Cl s' := by
  constructor
  · intro t th h; rw [ht] at h; intro i fo h1 h2 h3; rw [hlog]; exact List.mem_append_left _ (hc.t t th h i fo h1 h2 h3)
  · intro t th h; rw [ht] at h; intro i fo h1 h2; rw [hlog]; exact List.mem_append_left _ (hc.n t th h i fo h1 h2)
  · intro i q h; rw [hq] at h; intro fo h1 h2; rw [hlog]
    obtain ⟨u, hu⟩ := hc.q i q h fo h1 h2
    exact ⟨u, List.mem_append_left _ hu⟩

theorem sc_left {s : St} {qi : Nat} {q q' : Q} (hq : s.qs[qi]? = some q) (h : ∀ fo ∈ q'.outstanding, fo ∈ q.outstanding)
    {P : Nat → Fo → Prop} :
    ∀ (i : Nat) (x : Q), (s.qs.set qi q')[i]? = some x → ∀ fo ∈ x.outstanding, (∃ y, s.qs[i]? = some y ∧ fo ∈ y.outstanding) ∨ P i fo :=
  fun i x hx fo hf => Or.inl (same_content hq h i x hx fo hf)

theorem Cl_tr {s s' : St} (hc : Cl s) (h : Tr s s') : Cl s' := by
  cases h with
  | skip => exact hc
  | spawn =>
    refine ⟨fun t th ht => ?_, fun t th ht => ?_, hc.q⟩
    · rcases get_append ht with ⟨rfl, rfl⟩ | ⟨_, ht⟩
      · simp [opFo]
      · exact hc.t t th ht
    · rcases get_append ht with ⟨rfl, rfl⟩ | ⟨_, ht⟩
      · simp
      · exact hc.n t th ht
  | create m nb hm =>
    refine ⟨fun t th ht => ?_, fun t th ht => ?_, fun i q hq => ?_⟩
    · rcases get_append ht with ⟨rfl, rfl⟩ | ⟨_, ht⟩
      · simp [opFo]
      · exact hc.t t th ht
    · rcases get_append ht with ⟨rfl, rfl⟩ | ⟨_, ht⟩
      · simp
      · exact hc.n t th ht
    · rcases get_append hq with ⟨rfl, rfl⟩ | ⟨_, hq⟩
      · simp [Q.outstanding, curFo]
      · exact hc.q i q hq
  | startErr t qi th sy dn rc ht hrc =>
    exact Cl_mono hc [.called t qi s.next sy dn, .result t qi s.next sy rc] _ rfl rfl (by simp)
  | startInl t qi th ht ho hthis ha =>
    have h1 : Cl { s with log := s.log ++ [.called t qi s.next true none, .inlined qi s.next] } :=
      Cl_mono hc [.called t qi s.next true none, .inlined qi s.next] _ rfl rfl rfl
    refine ⟨fun u x hx => ?_, fun u x hx n hn i hi => ?_, ?_⟩
    · rcases get_set hx with ⟨rfl, rfl⟩ | ⟨hne, hx⟩
      · simpa using h1.t u th ht
      · simpa using h1.t u x hx
    · rcases get_set hx with ⟨rfl, rfl⟩ | ⟨hne, hx⟩
      · simp only at hi hn
        rw [hthis] at hi; cases hi
        rcases List.mem_cons.1 hn with rfl | hn
        · simp
        · simpa using h1.n u th ht n hn qi hthis
      · simpa using h1.n u x hx n hn i hi
    · simpa using h1.q
  | startGot t qi th q fo op ht ho hq hi hn hcf hnf hs hsd hself hop =>
    have h1 : Cl { s with log := s.log ++ [.called t qi fo.n fo.sync.isSome fo.done] } :=
      Cl_mono hc [.called t qi fo.n fo.sync.isSome fo.done] _ rfl rfl rfl
    refine ⟨fun u x hx => ?_, fun u x hx => ?_, fun i x hx fo' hf hcc => ?_⟩
    · rcases get_set hx with ⟨rfl, rfl⟩ | ⟨hne, hx⟩
      · intro i fo' hf hoo hcc
        rcases hop with rfl | ⟨rc, _, _, rfl⟩ <;> simp [opFo] at hf <;> subst hf <;> simp [opOn] at hoo <;> subst hoo <;> simp
      · exact h1.t u x hx
    · rcases get_set hx with ⟨rfl, rfl⟩ | ⟨hne, hx⟩
      · exact h1.n u th ht
      · exact h1.n u x hx
    · obtain ⟨y, hy, hfy⟩ := same_content hq (q' := { q with usage := q.usage + 1 }) (fun fo hf => hf) i x hx fo' hf
      exact h1.q i y hy fo' hfy hcc
  | addOk t qi th q fo ht ho hq hgd =>
    refine Cl_upd hc ht (th' := { th with op := if fo.sync.isSome then .syncWait qi fo false else .put qi fo .ok }) ?_ ⟨rfl, fun n h => h⟩ _ _ ?_ rfl rfl
    · intro i fo' hf hoo
      right
      have hf' : fo' = fo := by
        simp only at hf
        split at hf <;> simp [opFo] at hf <;> exact hf.symm
      have hi : qi = i := by
        simp only at hoo
        split at hoo <;> simpa [opOn] using hoo
      subst hf'; subst hi
      rcases ho with ho | ho <;> simp [ho, opFo, opOn]
    · intro i x hx fo' hf
      rcases get_set hx with ⟨rfl, rfl⟩ | ⟨hne, hx⟩
      · have hf' : fo' ∈ q.outstanding ∨ fo' = fo := by
          simp [Q.outstanding] at hf ⊢; grind
        rcases hf' with hf' | rfl
        · exact Or.inl ⟨q, hq, hf'⟩
        · right; rcases ho with ho | ho <;> simp [ho, opFo, opOn]
      · exact Or.inl ⟨x, hx, hf⟩
  | addErr t qi th q fo rc ht ho hq hrc hw hei hwk =>
    refine Cl_upd hc ht (th' := { th with op := .put qi fo rc }) ?_ ⟨rfl, fun n h => h⟩ [] _ (fun i q' h fo hf => Or.inl ⟨q', h, hf⟩) rfl (by simp)
    intro i fo' hf hoo
    right
    simp [opFo] at hf; simp [opOn] at hoo; subst hf; subst hoo
    rcases ho with ho | ho <;> simp [ho, opFo, opOn]
  | addSleep t qi th q fo ht ho hq hw hnb =>
    refine Cl_upd hc ht (th' := { th with op := .asleep qi fo }) ?_ ⟨rfl, fun n h => h⟩ [] _ (fun i q' h fo hf => Or.inl ⟨q', h, hf⟩) rfl (by simp)
    intro i fo' hf hoo
    right
    simp [opFo] at hf; simp [opOn] at hoo; subst hf; subst hoo
    rcases ho with ho | ho <;> simp [ho, opFo, opOn]
  | wake t qi th fo ht ho =>
    refine Cl_upd hc ht (th' := { th with op := .woken qi fo }) ?_ ⟨rfl, fun n h => h⟩ [] _ (fun i q' h fo hf => Or.inl ⟨q', h, hf⟩) rfl (by simp)
    intro i fo' hf hoo
    right
    simp [opFo] at hf; simp [opOn] at hoo; subst hf; subst hoo
    simp [ho, opFo, opOn]
  | syncRet t qi th fo ht ho =>
    refine Cl_upd hc ht (th' := { th with op := .put qi fo .ok }) ?_ ⟨rfl, fun n h => h⟩ [] _ (fun i q' h fo hf => Or.inl ⟨q', h, hf⟩) rfl (by simp)
    intro i fo' hf hoo
    right
    simp [opFo] at hf; simp [opOn] at hoo; subst hf; subst hoo
    simp [ho, opFo, opOn]
  | put t qi th q fo rc ht ho hq =>
    refine Cl_upd hc ht (th' := { th with op := .idle }) (by simp [opFo]) ⟨rfl, fun n h => h⟩
      (if fo.compl then [] else [.result t qi fo.n fo.sync.isSome rc]) _ (sc_left hq (q' := { q with usage := q.usage - 1 }) fun fo hf => hf) rfl ?_
    split <;> simp
  | inlRet t qi n rest th ht ho hl hthis =>
    exact Cl_upd hc ht (th' := { th with inl := rest }) (fun i fo h1 h2 => Or.inr ⟨h1, h2⟩) ⟨rfl, fun n h => by rw [hl]; simp; exact Or.inr h⟩
      [.inlineRet qi n, .result t qi n true .ok] _ (fun i q' h fo hf => Or.inl ⟨q', h, hf⟩) rfl (by simp)
  | dgot t qi th q ht ho hq hi =>
    exact Cl_upd hc ht (th' := { th with op := .dgot qi }) (by simp [opFo]) ⟨rfl, fun n h => h⟩ [] _ (sc_left hq (q' := { q with usage := q.usage + 1 }) fun fo hf => hf) rfl (by simp)
  | dset t qi th q ht ho hq =>
    exact Cl_upd hc ht (th' := { th with op := .dterm qi }) (by simp [opFo]) ⟨rfl, fun n h => h⟩ [] _ (sc_left hq (q' := { q with term := true }) fun fo hf => hf) rfl (by simp)
  | dput t qi th q ht ho hq =>
    have hc1 : Cl { s with thr := s.thr.map (wakeOn th.this) } := by
      refine ⟨fun u x hx => ?_, fun u x hx => ?_, hc.q⟩
      · simp only [List.getElem?_map, Option.map_eq_some_iff] at hx
        obtain ⟨y, hy, rfl⟩ := hx
        have h1 := hc.t u y hy
        intro i fo hf hoo
        refine h1 i fo ?_ ?_
        · unfold wakeOn at hf
          split at hf
          · rename_i qj fo1 hop
            split at hf
            · simpa [opFo, hop] using hf
            · exact hf
          · exact hf
        · have := holds_wakeOn i th.this y
          unfold holds at this; rw [← this]; exact hoo
      · simp only [List.getElem?_map, Option.map_eq_some_iff] at hx
        obtain ⟨y, hy, rfl⟩ := hx
        have h1 := hc.n u y hy
        have e1 : (wakeOn th.this y).inl = y.inl := by
          unfold wakeOn; split
          · split <;> rfl
          · rfl
        have e2 : (wakeOn th.this y).this = y.this := by
          unfold wakeOn; split
          · split <;> rfl
          · rfl
        rw [e1, e2]; exact h1
    have ht1 : (s.thr.map (wakeOn th.this))[t]? = some th := by simp [ht, wakeOn, ho]
    exact Cl_upd hc1 (t := t) (th := th) ht1 (th' := { th with op := .idle }) (by simp [opFo]) ⟨rfl, fun n h => h⟩ [] _
      (sc_left (s := { s with thr := s.thr.map (wakeOn th.this) }) hq (q' := { q with usage := q.usage - 1 }) fun fo hf => hf) rfl (by simp)
  | own qi q q' th es hq ht ho hl hk hcc =>
    refine Cl_upd hc ht (th' := th) (fun i fo h1 h2 => Or.inr ⟨h1, h2⟩) ⟨rfl, fun n h => h⟩ es _ (sc_left hq ?_) (set_self ht).symm rfl
    intro fo hf
    simp only [Q.outstanding, List.mem_append] at hf ⊢
    rcases hcc with ⟨hp, _, _, hpe, rfl, rfl⟩ | ⟨fo', rest, m, hp, hb, rfl, rfl⟩ | ⟨hp, hb, rfl, rfl⟩ | ⟨fo', m, hp, rfl, rfl⟩ |
        ⟨fo', m, hp, _, rfl, rfl⟩ | ⟨fo', d, hp, hd, hf', rfl, rfl⟩ | ⟨fo', hp, rfl, rfl⟩ | ⟨hp, _, _, rfl, rfl⟩ | ⟨hp, _, rfl, rfl⟩ |
        ⟨hp, _, _, rfl, rfl⟩ | ⟨hp, _, _, rfl, rfl⟩ | ⟨hp, _, rfl, rfl⟩ <;> simp_all [curFo] <;> grind
  | doneQ qi d q dq th fo c hq ht ho hl hp hd hdq hdi hcc =>
    refine Cl_upd hc ht (th' := { th with op := .got d c }) ?_ ⟨rfl, fun n h => h⟩ [] _ ?_ rfl (by simp)
    · intro i fo' hf hoo
      simp [opFo] at hf; subst hf; subst hcc; simp
    · intro i x hx fo' hf
      left
      have hqo : ∀ fo' ∈ ({ q with phase := .fin fo } : Q).outstanding, fo' ∈ q.outstanding := by
        intro fo' hf; simpa [Q.outstanding, curFo, hp] using hf
      rcases get_set hx with ⟨rfl, rfl⟩ | ⟨hne, hx⟩
      · by_cases hiq : i = qi
        · subst hiq
          rw [if_pos rfl] at hf
          exact ⟨q, hq, hqo fo' hf⟩
        · rw [if_neg hiq] at hf
          exact ⟨dq, hdq, hf⟩
      · rcases get_set hx with ⟨rfl, rfl⟩ | ⟨hne2, hx⟩
        · exact ⟨q, hq, hqo fo' hf⟩
        · exact ⟨x, hx, hf⟩
  | fin qi q th fo thr' bad' hq ht ho hl hp hcc =>
    have hsub : ∀ fo' ∈ ({ q with phase := .sig, count := q.count - 1 } : Q).outstanding, fo' ∈ q.outstanding := by
      intro fo' hf; simp [Q.outstanding, curFo, hp] at hf ⊢; grind
    rcases hcc with ⟨_, rfl, rfl⟩ | ⟨t, tt, hsy, htt, hop, rfl, rfl⟩ | ⟨t, hsy, hno, rfl, rfl⟩
    · exact Cl_upd hc ht (th' := th) (fun i fo h1 h2 => Or.inr ⟨h1, h2⟩) ⟨rfl, fun n h => h⟩ _ _ (sc_left hq hsub) (set_self ht).symm rfl
    · refine Cl_upd hc htt (th' := { tt with op := .syncWait qi fo true }) ?_ ⟨rfl, fun n h => h⟩ _ _ (sc_left hq hsub) rfl rfl
      intro i fo' hf hoo
      right
      simp [opFo] at hf; simp [opOn] at hoo; subst hf; subst hoo
      simp [hop, opFo, opOn]
    · exact Cl_upd hc ht (th' := th) (fun i fo h1 h2 => Or.inr ⟨h1, h2⟩) ⟨rfl, fun n h => h⟩ _ _ (sc_left hq hsub) (set_self ht).symm rfl
  | sig qi q th thr' hq ht ho hl hp hcc =>
    have hsub : ∀ fo' ∈ ({ q with phase := .next } : Q).outstanding, fo' ∈ q.outstanding := by
      intro fo' hf; simpa [Q.outstanding, curFo, hp] using hf
    rcases hcc with ⟨_, rfl⟩ | ⟨w, tw, fo, htw, hop, rfl⟩
    · exact Cl_upd hc ht (th' := th) (fun i fo h1 h2 => Or.inr ⟨h1, h2⟩) ⟨rfl, fun n h => h⟩ [] _ (sc_left hq hsub) (set_self ht).symm (by simp)
    · refine Cl_upd hc htw (th' := { tw with op := .woken qi fo }) ?_ ⟨rfl, fun n h => h⟩ [] _ (sc_left hq hsub) rfl (by simp)
      intro i fo' hf hoo
      right
      simp [opFo] at hf; simp [opOn] at hoo; subst hf; subst hoo
      simp [hop, opFo, opOn]

theorem Asked_tr {s s' : St} (hcl : Cl s) (hc : AskedAll s.log) (h : Tr s s') : AskedAll s'.log := by
  cases h with
  | skip => exact hc
  | spawn => exact hc
  | create m nb hm => exact hc
  | startErr t qi th sy dn rc ht hrc =>
    refine asked_snoc (asked_snoc hc (by simp [Asked])) ?_
    simp [Asked]
  | startInl t qi th ht ho hthis ha =>
    exact asked_snoc (asked_snoc hc (by simp [Asked])) (by simp only [Asked]; exact ⟨t, by simp⟩)
  | startGot => exact asked_snoc hc (by simp [Asked])
  | addOk t qi th q fo ht ho hq hgd =>
    refine asked_snoc hc ?_
    cases hfc : fo.compl
    · have := hcl.t t th ht qi fo (by rcases ho with ho | ho <;> simp [ho, opFo]) (by rcases ho with ho | ho <;> simp [ho, opOn]) hfc
      simp only [Asked]
      exact ⟨t, _, _, this⟩
    · simp [Asked]
  | addErr => exact hc
  | addSleep => exact hc
  | wake => exact hc
  | syncRet => exact hc
  | put t qi th q fo rc ht ho hq =>
    simp only
    split
    · exact hc
    · rename_i hfc
      refine asked_snoc hc ?_
      have := hcl.t t th ht qi fo (by simp [ho, opFo]) (by simp [ho, opOn]) (by simpa using hfc)
      simp only [Asked]
      exact ⟨_, this⟩
  | inlRet t qi n rest th ht ho hl hthis =>
    refine asked_snoc (asked_snoc hc (by simp [Asked])) ?_
    simp only [Asked]
    exact ⟨none, List.mem_append_left _ (hcl.n t th ht n (by simp [hl]) qi hthis)⟩
  | dgot => exact hc
  | dset => exact hc
  | dput => exact hc
  | own qi q q' th es hq ht ho hl hk hcc =>
    rcases hcc with ⟨hp, _, _, hpe, rfl, rfl⟩ | ⟨fo', rest, m, hp, hbt, rfl, rfl⟩ | ⟨hp, hbt, rfl, rfl⟩ | ⟨fo', m, hp, rfl, rfl⟩ |
        ⟨fo', m, hp, _, rfl, rfl⟩ | ⟨fo', d, hp, hd, hf', rfl, rfl⟩ | ⟨fo', hp, rfl, rfl⟩ | ⟨hp, _, _, rfl, rfl⟩ | ⟨hp, _, rfl, rfl⟩ |
        ⟨hp, _, _, rfl, rfl⟩ | ⟨hp, _, _, rfl, rfl⟩ | ⟨hp, _, rfl, rfl⟩
    all_goals try (simpa using hc)
    · refine asked_snoc hc ?_
      cases hfc : fo'.compl
      · simp only [Asked]
        obtain ⟨t, hm⟩ := hcl.q qi q hq fo' (by simp [Q.outstanding, hbt]) hfc
        exact ⟨t, _, hm⟩
      · simp [Asked]
    · exact asked_snoc hc (by simp [Asked])
    · exact asked_snoc hc (by simp [Asked])
  | doneQ => exact hc
  | fin qi q th fo thr' bad' hq ht ho hl hp hcc => exact asked_snoc hc (by simp [Asked])
  | sig => exact hc

theorem Asked_reach : ∀ s, Reachable s → Cl s ∧ AskedAll s.log :=
  reach_induction ⟨⟨by simp [init], by simp [init], by simp [init]⟩, by intro l1 e l2 h; simp [init] at h⟩
    fun _ _ h ht => ⟨Cl_tr h.1 ht, Asked_tr h.1 h.2 ht⟩

/-! ### Blocked producers -/

/-- For the statements and proofs about the models imported; models no code of its own. -/
def slOp (i : Nat) : Op → Nat
  | .asleep q _ => if q = i then 1 else 0
  | _ => 0
/-- For the statements and proofs about the models imported; models no code of its own. -/
def wkOp (i : Nat) : Op → Nat
  | .woken q _ => if q = i then 1 else 0
  | _ => 0
/-- For the statements and proofs about the models imported; models no code of its own. -/
def sgPh : Phase → Nat
  | .sig => 1
  | _ => 0

/-- For the statements and proofs about the models imported; models no code of its own. -/
def sl (i : Nat) (th : Thr) : Nat := slOp i th.op
/-- For the statements and proofs about the models imported; models no code of its own. -/
def wk (i : Nat) (th : Thr) : Nat := wkOp i th.op

/-- For the statements and proofs about the models imported; models no code of its own. -/
def room (s : St) (i : Nat) (q : Q) : Nat :=
  q.count + tot (wk i) s.thr + sgPh q.phase

/-- For the statements and proofs about the models imported; models no code of its own. -/
structure BL (s : St) : Prop where
  b : ∀ (i : Nat) (q : Q), s.qs[i]? = some q → 0 < tot (sl i) s.thr → q.max ≤ room s i q
  m : ∀ (i : Nat) (q : Q), s.qs[i]? = some q → 1 ≤ q.max

theorem BL_upd {s : St} (hl : BL s) {t qi : Nat} {q q' : Q} {th th' : Thr} {es : List Ev} (hq : s.qs[qi]? = some q)
    (ht : s.thr[t]? = some th) (hm : q'.max = q.max)
    (ho : ∀ i, i ≠ qi → sl i th' ≤ sl i th ∧ wk i th ≤ wk i th')
    (hx : (sl qi th' ≤ sl qi th ∧ q.count + wk qi th + sgPh q.phase ≤
        q'.count + wk qi th' + sgPh q'.phase) ∨ q'.max ≤ q'.count)
    (s' : St) (hqs : s'.qs = s.qs.set qi q') (hth : s'.thr = s.thr.set t th') (hlog : s'.log = s.log ++ es) : BL s' := by
  constructor
  · intro i x hxi hpos
    rw [hqs] at hxi
    unfold room
    rw [hth] at hpos ⊢
    have a1 := tot_set (sl i) ht th'
    have a2 := tot_set (wk i) ht th'
    rcases get_set hxi with ⟨rfl, rfl⟩ | ⟨hne, hxi⟩
    · rcases hx with ⟨h1, h2⟩ | h
      · have := hl.b i q hq (by omega)
        unfold room at this; omega
      · omega
    · have h1 := ho i hne
      have := hl.b i x hxi (by omega)
      unfold room at this; omega
  · intro i x hxi
    rw [hqs] at hxi
    rcases get_set hxi with ⟨rfl, rfl⟩ | ⟨hne, hxi⟩
    · rw [hm]; exact hl.m i q hq
    · exact hl.m i x hxi

theorem BL_tr {s s' : St} (hb : Base s) (hl : BL s) (h : Tr s s') : BL s' := by
  cases h with
  | skip => exact hl
  | spawn =>
    refine ⟨fun i q hq hp => ?_, hl.m⟩
    have := hl.b i q hq
    simp [tot_append, sl, wk, slOp, wkOp, room] at hp this ⊢
    exact this hp
  | create m nb hm =>
    refine ⟨fun i q hq hp => ?_, fun i q hq => ?_⟩
    · rcases get_append hq with ⟨rfl, rfl⟩ | ⟨_, hq⟩
      · have h1 := hb.u.ran s.qs.length (Nat.le_refl _)
        rw [tot_zero] at h1
        have : tot (sl s.qs.length) (s.thr ++ [{ this := some s.qs.length, op := .idle, inl := [] }]) = 0 := by
          rw [tot_zero]
          intro a ha
          rcases List.mem_append.1 ha with ha | ha
          · have := h1 a ha
            unfold holds opOn at this; unfold sl slOp
            split <;> simp_all
          · simp at ha; subst ha; rfl
        simp only at hp; omega
      · have := hl.b i q hq
        simp [tot_append, sl, wk, slOp, wkOp, room] at hp this ⊢
        exact this hp
    · rcases get_append hq with ⟨rfl, rfl⟩ | ⟨_, hq⟩
      · exact hm
      · exact hl.m i q hq
  | startErr t qi th sy dn rc ht hrc =>
    refine ⟨fun i q hq hp => ?_, hl.m⟩
    have := hl.b i q hq hp
    unfold room at this ⊢
    simp only [tot_app]; omega
  | startInl t qi th ht ho hthis ha =>
    refine ⟨fun i q hq hp => ?_, hl.m⟩
    have a1 := tot_set (sl i) ht { th with inl := s.next :: th.inl }
    have a2 := tot_set (wk i) ht { th with inl := s.next :: th.inl }
    have := hl.b i q hq
    unfold room at this ⊢
    simp only [tot_app, sl, wk] at *; omega
  | startGot t qi th q fo op ht ho hq hi hn hc hnf hs hsd hself hop =>
    refine BL_upd hl hq ht (q' := { q with usage := q.usage + 1 }) (th' := { th with op := op }) (es := [.called t qi fo.n fo.sync.isSome fo.done]) rfl ?_ (Or.inl ?_) _ rfl rfl rfl
    · intro i _
      rcases hop with rfl | ⟨rc, h1, h2, rfl⟩ <;> simp [sl, wk, slOp, wkOp, ho]
    · rcases hop with rfl | ⟨rc, h1, h2, rfl⟩ <;> simp [sl, wk, slOp, wkOp, ho] <;> omega
  | addOk t qi th q fo ht ho hq hgd =>
    refine BL_upd hl hq ht (q' := { q with pend := q.pend ++ [fo], count := q.count + 1 })
      (th' := { th with op := if fo.sync.isSome then .syncWait qi fo false else .put qi fo .ok }) (es := [.queued qi fo.n fo.compl]) rfl ?_ (Or.inl ?_) _ rfl rfl rfl
    · intro i hne
      have hni : qi ≠ i := fun e => hne e.symm
      rcases ho with ho | ho <;> split <;> simp [sl, wk, slOp, wkOp, ho, hni]
    · rcases ho with ho | ho <;> split <;> simp [sl, wk, slOp, wkOp, ho] <;> omega
  | addErr t qi th q fo rc ht ho hq hrc hw hei hwk =>
    refine BL_upd hl hq ht (q' := q) (th' := { th with op := .put qi fo rc }) (es := []) rfl ?_ ?_ _ (set_self hq).symm rfl (by simp)
    · intro i hne
      have hni : qi ≠ i := fun e => hne e.symm
      rcases ho with ho | ho <;> cases rc <;> simp [sl, wk, slOp, wkOp, ho, hni]
    · rcases hw with ⟨rfl, _⟩ | hw
      · left
        rcases ho with ho | ho
        · simp [sl, wk, slOp, wkOp, ho]
        · exact absurd rfl (hwk.1 ho)
      · exact Or.inr hw.2
  | addSleep t qi th q fo ht ho hq hw hnb =>
    refine BL_upd hl hq ht (q' := q) (th' := { th with op := .asleep qi fo }) (es := []) rfl ?_ (Or.inr hw.2) _ (set_self hq).symm rfl (by simp)
    intro i hne
    have hni : qi ≠ i := fun e => hne e.symm
    rcases ho with ho | ho <;> simp [sl, wk, slOp, wkOp, ho, hni]
  | wake t qi th fo ht ho =>
    refine ⟨fun i q hq hp => ?_, hl.m⟩
    have a1 := tot_set (sl i) ht { th with op := .woken qi fo }
    have a2 := tot_set (wk i) ht { th with op := .woken qi fo }
    have := hl.b i q hq
    unfold room at this ⊢
    simp only [sl, wk, ho, slOp, wkOp] at *; omega
  | syncRet t qi th fo ht ho =>
    refine ⟨fun i q hq hp => ?_, hl.m⟩
    have a1 := tot_set (sl i) ht { th with op := .put qi fo .ok }
    have a2 := tot_set (wk i) ht { th with op := .put qi fo .ok }
    have := hl.b i q hq
    unfold room at this ⊢
    simp only [sl, wk, ho, slOp, wkOp] at *; omega
  | put t qi th q fo rc ht ho hq =>
    have hcr : fo.compl = true → rc = .ok := by
      intro hc
      cases hr : decide (rc = .ok)
      · have := (hb.w.t t th ht).2.2.2 qi fo rc ho (by simpa using hr)
        rw [hc] at this; simp at this
      · simpa using hr
    refine BL_upd hl hq ht (q' := { q with usage := q.usage - 1 }) (th' := { th with op := .idle })
      (es := if fo.compl then [] else [.result t qi fo.n fo.sync.isSome rc]) rfl ?_ (Or.inl ?_) _ rfl rfl ?_
    · intro i hne
      have : qi ≠ i := fun e => hne e.symm
      cases rc <;> simp [sl, wk, slOp, wkOp, ho, this]
    · cases hc : fo.compl
      · cases rc <;> simp [sl, wk, slOp, wkOp, ho, tot_cons, tot_nil]
      · rw [hcr hc] at ho; simp [sl, wk, slOp, wkOp, ho]
    · split <;> simp
  | inlRet t qi n rest th ht ho hl' hthis =>
    refine ⟨fun i q hq hp => ?_, hl.m⟩
    have a1 := tot_set (sl i) ht { th with inl := rest }
    have a2 := tot_set (wk i) ht { th with inl := rest }
    have := hl.b i q hq
    unfold room at this ⊢
    simp only [tot_app, sl, wk] at *; omega
  | dgot t qi th q ht ho hq hi =>
    refine BL_upd hl hq ht (q' := { q with usage := q.usage + 1 }) (th' := { th with op := .dgot qi }) (es := []) rfl ?_ (Or.inl ?_) _ rfl rfl (by simp)
    · intro i _; simp [sl, wk, slOp, wkOp, ho]
    · simp [sl, wk, slOp, wkOp, ho]
  | dset t qi th q ht ho hq =>
    refine BL_upd hl hq ht (q' := { q with term := true }) (th' := { th with op := .dterm qi }) (es := []) rfl ?_ (Or.inl ?_) _ rfl rfl (by simp)
    · intro i _; simp [sl, wk, slOp, wkOp, ho]
    · simp [sl, wk, slOp, wkOp, ho]
  | dput t qi th q ht ho hq =>
    have hms : ∀ i (l : List Thr), tot (sl i) (l.map (wakeOn th.this)) ≤ tot (sl i) l ∧ tot (wk i) l ≤ tot (wk i) (l.map (wakeOn th.this)) := by
      intro i l
      induction l with
      | nil => simp
      | cons a as ih =>
        simp only [List.map_cons, tot_cons]
        have : sl i (wakeOn th.this a) ≤ sl i a ∧ wk i a ≤ wk i (wakeOn th.this a) := by
          unfold wakeOn
          split
          · rename_i h
            split
            · simp [sl, wk, slOp, wkOp, h]
            · simp
          · simp
        omega
    have hl1 : BL { s with thr := s.thr.map (wakeOn th.this) } := by
      refine ⟨fun i q hq hp => ?_, hl.m⟩
      have h1 := hms i s.thr
      have := hl.b i q hq (by simp only at hp; omega)
      unfold room at this ⊢; simp only; omega
    have ht1 : (s.thr.map (wakeOn th.this))[t]? = some th := by simp [ht, wakeOn, ho]
    refine BL_upd hl1 (t := t) (th := th) hq ht1 (q' := { q with usage := q.usage - 1 }) (th' := { th with op := .idle }) (es := []) rfl ?_ (Or.inl ?_) _ rfl rfl (by simp)
    · intro i _; simp [sl, wk, slOp, wkOp, ho]
    · simp [sl, wk, slOp, wkOp, ho]
  | own qi q q' th es hq ht ho hll hk hcc =>
    refine BL_upd hl hq ht (q' := q') (th' := th) (es := es) hk.2.1 (fun i _ => by omega) (Or.inl ?_) _ rfl (set_self ht).symm rfl
    rcases hcc with ⟨hp, _, _, hpe, rfl, rfl⟩ | ⟨fo', rest, m, hp, hbt, rfl, rfl⟩ | ⟨hp, hbt, rfl, rfl⟩ | ⟨fo', m, hp, rfl, rfl⟩ |
        ⟨fo', m, hp, _, rfl, rfl⟩ | ⟨fo', d, hp, hd, hf', rfl, rfl⟩ | ⟨fo', hp, rfl, rfl⟩ | ⟨hp, _, _, rfl, rfl⟩ | ⟨hp, _, rfl, rfl⟩ |
        ⟨hp, _, _, rfl, rfl⟩ | ⟨hp, _, _, rfl, rfl⟩ | ⟨hp, _, rfl, rfl⟩ <;> simp [hp, sgPh]
  | doneQ qi d q dq th fo c hq ht ho hll hp hd hdq hdi hc =>
    have hl1 : BL { s with qs := s.qs.set qi { q with phase := .fin fo } } := by
      refine BL_upd hl hq ht (q' := { q with phase := .fin fo }) (th' := th) (es := []) rfl (fun i _ => by omega) (Or.inl ?_) _ rfl (set_self ht).symm (by simp)
      simp [hp, sgPh]
    have hd1 : ({ s with qs := s.qs.set qi { q with phase := .fin fo } } : St).qs[d]? =
        some (if d = qi then { q with phase := .fin fo } else dq) := by
      simp only [List.getElem?_set]
      by_cases hdi : d = qi
      · subst hdi; simp [lt_of_get hq]
      · rw [if_neg (fun e => hdi e.symm), hdq, if_neg hdi]
    refine BL_upd hl1 hd1 (t := q.thr) (th := th) ht
      (q' := if d = qi then { q with phase := .fin fo, usage := q.usage + 1 } else { dq with usage := dq.usage + 1 })
      (th' := { th with op := .got d c }) (es := []) ?_ ?_ (Or.inl ?_) _ rfl rfl (by simp)
    · split <;> rfl
    · intro i _; simp [sl, wk, slOp, wkOp, ho]
    · split <;> simp [sl, wk, slOp, wkOp, ho]
  | fin qi q th fo thr' bad' hq ht ho hll hp hc =>
    have hct : 1 ≤ q.count := by
      have := (hb.g.q qi q hq).ct
      simp [Q.outstanding, hp, curFo] at this; omega
    rcases hc with ⟨_, rfl, _⟩ | ⟨t, tt, hs, htt, hop, rfl, _⟩ | ⟨t, hs, _, rfl, _⟩
    · refine BL_upd hl hq ht (q' := { q with phase := .sig, count := q.count - 1 }) (th' := th) (es := [.finished qi fo.n fo.compl]) rfl (fun i _ => by omega) (Or.inl ?_) _ rfl (set_self ht).symm rfl
      simp [hp, sgPh]; omega
    · refine BL_upd hl hq htt (q' := { q with phase := .sig, count := q.count - 1 }) (th' := { tt with op := .syncWait qi fo true }) (es := [.finished qi fo.n fo.compl]) rfl ?_ (Or.inl ?_) _ rfl rfl rfl
      · intro i _; simp [sl, wk, slOp, wkOp, hop]
      · simp [hp, sgPh, sl, wk, slOp, wkOp, hop]; omega
    · refine BL_upd hl hq ht (q' := { q with phase := .sig, count := q.count - 1 }) (th' := th) (es := [.finished qi fo.n fo.compl]) rfl (fun i _ => by omega) (Or.inl ?_) _ rfl (set_self ht).symm rfl
      simp [hp, sgPh]; omega
  | sig qi q th thr' hq ht ho hll hp hc =>
    rcases hc with ⟨hno, rfl⟩ | ⟨w, tw, fo, htw, hop, rfl⟩
    · have hz : tot (sl qi) s.thr = 0 := by
        rw [tot_zero]
        intro a ha
        have := List.any_eq_false.1 hno a ha
        unfold asleepOn at this
        unfold sl slOp
        split <;> simp_all
      refine ⟨fun i x hx hp' => ?_, fun i x hx => ?_⟩
      · rcases get_set hx with ⟨rfl, rfl⟩ | ⟨hne, hx⟩
        · simp only at hp'; omega
        · exact hl.b i x hx hp'
      · rcases get_set hx with ⟨rfl, rfl⟩ | ⟨hne, hx⟩
        · exact hl.m i q hq
        · exact hl.m i x hx
    · refine BL_upd hl hq htw (q' := { q with phase := .next }) (th' := { tw with op := .woken qi fo }) (es := []) rfl ?_ (Or.inl ?_) _ rfl rfl (by simp)
      · intro i hne
        simp [sl, wk, slOp, wkOp, hop]
      · simp [sl, wk, slOp, wkOp, hop, hp, sgPh]

theorem BL_reach : ∀ s, Reachable s → BL s := by
  intro s hs
  have : Base s ∧ BL s := by
    revert s
    exact reach_induction ⟨Base_init, ⟨by simp [init], by simp [init]⟩⟩ fun s s' h ht => ⟨Base_tr h.1 ht, BL_tr h.1 h.2 ht⟩
  exact this.2

end Verif.Mpq
