import Verif.MpqTok

/-! Synchronous callers, causality of the log, blocked producers. -/

namespace Verif.Mpq

/-- For the statements and proofs about the models imported; models no code of its own. -/
structure Base (s : St) : Prop where
  u : U s
  g : LG s
  w : WF s
  k : Tok s

theorem Base_tr {s s' : St} (hb : Base s) (h : Tr s s') : Base s' :=
  ⟨U_tr hb.u h, LG_tr hb.u hb.g h, WF_tr hb.w h, Tok_tr hb.u hb.w hb.k h⟩

theorem Base_init : Base init :=
  ⟨U_reach _ ⟨[], rfl⟩, LG_reach _ ⟨[], rfl⟩, WF_init, Tok_init⟩

theorem Base_reach : ∀ s, Reachable s → Base s :=
  reach_induction Base_init fun _ _ hb h => Base_tr hb h

theorem tot_mem_le {α : Type} (w : α → Nat) {l : List α} {a : α} (h : a ∈ l) : w a ≤ tot w l := by
  induction l with
  | nil => simp at h
  | cons x xs ih =>
    rw [tot_cons]
    rcases List.mem_cons.1 h with rfl | h
    · omega
    · have := ih h; omega

theorem returnedOn_tot {i : Nat} {log : List Ev} {x : Nat × Bool} (h : x ∈ (returnedOn i log).map tag) :
    1 ≤ tot (evRet x.1 x.2) log := by
  simp only [returnedOn, List.mem_map, List.mem_filterMap] at h
  obtain ⟨y, ⟨e, he, hy⟩, rfl⟩ := h
  have := tot_mem_le (evRet y.1 y.2.1) he
  cases e <;> simp at hy
  obtain ⟨rfl, rfl⟩ := hy
  simpa [evRet, b2n, tag] using this

theorem queuedOn_tot {i : Nat} {log : List Ev} {x : Nat × Bool} (h : x ∈ queuedOn i log) :
    1 ≤ tot (evQueued x.1 x.2) log := by
  simp only [queuedOn, List.mem_filterMap] at h
  obtain ⟨e, he, hy⟩ := h
  have := tot_mem_le (evQueued x.1 x.2) he
  cases e <;> simp at hy
  obtain ⟨rfl, rfl⟩ := hy
  simpa [evQueued, b2n] using this

theorem evRetDone_le (n : Nat) (log : List Ev) : tot (evRetDone n) log ≤ tot (evRet n false) log := by
  induction log with
  | nil => simp [tot_nil]
  | cons e l ih =>
    simp only [tot_cons]
    have : evRetDone n e ≤ evRet n false e := by
      unfold evRetDone
      split
      · simp [evRet]
      · omega
    omega

/-- Every function, and every completion, is queued at most once. -/
theorem queued_le_one {s : St} (hb : Base s) (n : Nat) (c : Bool) : tot (evQueued n c) s.log ≤ 1 := by
  have h1 := hb.k.one n
  cases c with
  | false => omega
  | true =>
    have h2 := hb.k.dn n
    have h3 := evRetDone_le n s.log
    have h4 := hb.k.ret n false
    have h5 := hb.k.inv n false
    omega

theorem foIs_mem {fo : Fo} {l : List Fo} (h : fo ∈ l) : 1 ≤ tot (foIs fo.n fo.compl) l := by
  have := tot_mem_le (foIs fo.n fo.compl) h
  simpa [foIs, b2n] using this

/-- The function object being finished is not also waiting in the queue. -/
theorem fin_unique {s : St} (hb : Base s) {i : Nat} {q : Q} (hq : s.qs[i]? = some q) {fo : Fo} (hp : q.phase = .fin fo) :
    fo ∉ q.batch ++ q.pend := by
  intro hm
  have h1 := queued_le_one hb fo.n fo.compl
  have h2 := hb.k.inv fo.n fo.compl
  have h3 := hb.k.ret fo.n fo.compl
  have h4 := (hb.g.q i q hq).rt
  have h5 : 1 ≤ tot (evRet fo.n fo.compl) s.log := by
    refine returnedOn_tot (i := i) (x := ftag fo) ?_
    rw [h4, hp]; simp [afterRun]
  have h6 : 1 ≤ qWait fo.n fo.compl q := by
    rcases List.mem_append.1 hm with hm | hm
    · have := foIs_mem hm; unfold qWait; omega
    · have := foIs_mem hm; unfold qWait; omega
  have h7 := tot_le (qWait fo.n fo.compl) hq
  omega

/-! ### Synchronous callers -/

/-- For the statements and proofs about the models imported; models no code of its own. -/
structure Sy (s : St) : Prop where
  w : ∀ (i : Nat) (q : Q), s.qs[i]? = some q → ∀ fo ∈ q.outstanding, ∀ t, fo.sync = some t →
    ∃ th, s.thr[t]? = some th ∧ th.op = .syncWait i fo false
  o : ∀ (t : Nat) (th : Thr), s.thr[t]? = some th → ∀ fo, opFo th.op = some fo → ∀ t', fo.sync = some t' → t' = t
  b : s.bad = false

/-- A thread that is not waiting may be replaced; the queues' contents may shrink. -/
theorem Sy_upd {s : St} (hs : Sy s) {t : Nat} {th th' : Thr} (ht : s.thr[t]? = some th)
    (hnw : (∀ i fo, th.op ≠ .syncWait i fo false) ∨ th'.op = th.op)
    (ho : ∀ fo, opFo th'.op = some fo → ∀ t', fo.sync = some t' → t' = t)
    (s' : St) (hq : ∀ (i : Nat) (q' : Q), s'.qs[i]? = some q' → ∀ fo ∈ q'.outstanding, ∃ q, s.qs[i]? = some q ∧ fo ∈ q.outstanding)
    (hth : s'.thr = s.thr.set t th') (hbad : s'.bad = s.bad) : Sy s' := by
  refine ⟨fun i q' hq' fo hf u hu => ?_, fun u x hx fo hf t' ht' => ?_, by rw [hbad]; exact hs.b⟩
  · obtain ⟨q, hq1, hf1⟩ := hq i q' hq' fo hf
    obtain ⟨x, hx, hop⟩ := hs.w i q hq1 fo hf1 u hu
    rw [hth]
    by_cases hut : u = t
    · subst hut
      rw [ht] at hx; cases hx
      rcases hnw with h | h
      · exact absurd hop (h _ _)
      · exact ⟨th', by rw [List.getElem?_set_self (lt_of_get ht)], by rw [h, hop]⟩
    · exact ⟨x, by rw [List.getElem?_set_ne (fun e => hut e.symm)]; exact hx, hop⟩
  · rw [hth] at hx
    rcases get_set hx with ⟨rfl, rfl⟩ | ⟨hne, hx⟩
    · exact ho fo hf t' ht'
    · exact hs.o u x hx fo hf t' ht'

/-- The queues' contents are the same. -/
theorem same_content {s : St} {qi : Nat} {q q' : Q} (hq : s.qs[qi]? = some q)
    (h : ∀ fo ∈ q'.outstanding, fo ∈ q.outstanding) :
    ∀ (i : Nat) (x : Q), (s.qs.set qi q')[i]? = some x → ∀ fo ∈ x.outstanding, ∃ y, s.qs[i]? = some y ∧ fo ∈ y.outstanding := by
  intro i x hx fo hf
  rcases get_set hx with ⟨rfl, rfl⟩ | ⟨hne, hx⟩
  · exact ⟨q, hq, h fo hf⟩
  · exact ⟨x, hx, hf⟩

theorem Sy_tr {s s' : St} (hb : Base s) (hs : Sy s) (h : Tr s s') : Sy s' := by
  cases h with
  | skip => exact hs
  | spawn =>
    refine ⟨fun i q hq fo hf t ht => ?_, fun t th ht => ?_, hs.b⟩
    · obtain ⟨th, h1, h2⟩ := hs.w i q hq fo hf t ht
      exact ⟨th, by rw [List.getElem?_append_left (lt_of_get h1)]; exact h1, h2⟩
    · rcases get_append ht with ⟨rfl, rfl⟩ | ⟨_, ht⟩
      · simp [opFo]
      · exact hs.o t th ht
  | create m nb hm =>
    refine ⟨fun i q hq fo hf t ht => ?_, fun t th ht => ?_, hs.b⟩
    · rcases get_append hq with ⟨rfl, rfl⟩ | ⟨_, hq⟩
      · simp [Q.outstanding, curFo] at hf
      · obtain ⟨th, h1, h2⟩ := hs.w i q hq fo hf t ht
        exact ⟨th, by rw [List.getElem?_append_left (lt_of_get h1)]; exact h1, h2⟩
    · rcases get_append ht with ⟨rfl, rfl⟩ | ⟨_, ht⟩
      · simp [opFo]
      · exact hs.o t th ht
  | startErr t qi th sy dn rc ht hrc => exact ⟨hs.w, hs.o, hs.b⟩
  | startInl t qi th ht ho hthis ha =>
    exact Sy_upd hs ht (th' := { th with inl := s.next :: th.inl }) (Or.inr rfl) (hs.o t th ht) _ (fun i q' h fo hf => ⟨q', h, hf⟩) rfl rfl
  | startGot t qi th q fo op ht ho hq hi hn hc hnf hss hsd hself hop =>
    refine Sy_upd hs ht (th' := { th with op := op }) (Or.inl (by simp [ho])) ?_ _ (same_content hq fun fo hf => hf) rfl rfl
    intro fo' hf t' ht'
    have : fo' = fo := by rcases hop with rfl | ⟨rc, _, _, rfl⟩ <;> simp [opFo] at hf <;> exact hf.symm
    subst this
    rcases hss with h | h <;> rw [h] at ht' <;> simp at ht'
    exact ht'.symm
  | addOk t qi th q fo ht ho hq hgd =>
    have hown : ∀ t', fo.sync = some t' → t' = t := hs.o t th ht fo (by rcases ho with ho | ho <;> simp [ho, opFo])
    refine ⟨fun i q' hq' fo' hf u hu => ?_, fun u x hx fo' hf t' ht' => ?_, hs.b⟩
    · have hold : ∀ y, s.qs[i]? = some y → fo' ∈ y.outstanding → ∃ th', (s.thr.set t { th with op := if fo.sync.isSome = true then Op.syncWait qi fo false else Op.put qi fo Rc.ok })[u]? = some th' ∧ th'.op = Op.syncWait i fo' false := by
        intro y hy hfy
        obtain ⟨x, hx, hxo⟩ := hs.w i y hy fo' hfy u hu
        have hut : u ≠ t := by
          rintro rfl; rw [ht] at hx; cases hx
          rcases ho with ho | ho <;> rw [ho] at hxo <;> simp at hxo
        exact ⟨x, by rw [List.getElem?_set_ne (fun e => hut e.symm)]; exact hx, hxo⟩
      rcases get_set hq' with ⟨rfl, rfl⟩ | ⟨hne, hx⟩
      · have hf' : fo' ∈ q.outstanding ∨ fo' = fo := by
          simp [Q.outstanding] at hf ⊢; grind
        rcases hf' with hf' | rfl
        · exact hold q hq hf'
        · have := hown u hu; subst this
          exact ⟨_, List.getElem?_set_self (lt_of_get ht), by simp [hu]⟩
      · exact hold q' hx hf
    · rcases get_set hx with ⟨rfl, rfl⟩ | ⟨hne, hx⟩
      · have : fo' = fo := by
          simp only at hf
          split at hf <;> simp [opFo] at hf <;> exact hf.symm
        subst this; exact hown t' ht'
      · exact hs.o u x hx fo' hf t' ht'
  | addErr t qi th q fo rc ht ho hq hrc hw hei hwk =>
    refine Sy_upd hs ht (th' := { th with op := .put qi fo rc }) (Or.inl ?_) ?_ _ (fun i q' h fo hf => ⟨q', h, hf⟩) rfl rfl
    · rcases ho with ho | ho <;> simp [ho]
    · intro fo' hf
      simp [opFo] at hf; subst hf
      exact hs.o t th ht fo (by rcases ho with ho | ho <;> simp [ho, opFo])
  | addSleep t qi th q fo ht ho hq hw hnb =>
    refine Sy_upd hs ht (th' := { th with op := .asleep qi fo }) (Or.inl ?_) ?_ _ (fun i q' h fo hf => ⟨q', h, hf⟩) rfl rfl
    · rcases ho with ho | ho <;> simp [ho]
    · intro fo' hf
      simp [opFo] at hf; subst hf
      exact hs.o t th ht fo (by rcases ho with ho | ho <;> simp [ho, opFo])
  | wake t qi th fo ht ho =>
    refine Sy_upd hs ht (th' := { th with op := .woken qi fo }) (Or.inl (by simp [ho])) ?_ _ (fun i q' h fo hf => ⟨q', h, hf⟩) rfl rfl
    intro fo' hf
    simp [opFo] at hf; subst hf
    exact hs.o t th ht fo (by simp [ho, opFo])
  | syncRet t qi th fo ht ho =>
    refine Sy_upd hs ht (th' := { th with op := .put qi fo .ok }) (Or.inl (by simp [ho])) ?_ _ (fun i q' h fo hf => ⟨q', h, hf⟩) rfl rfl
    intro fo' hf
    simp [opFo] at hf; subst hf
    exact hs.o t th ht fo (by simp [ho, opFo])
  | put t qi th q fo rc ht ho hq =>
    exact Sy_upd hs ht (th' := { th with op := .idle }) (Or.inl (by simp [ho])) (by simp [opFo]) _ (same_content hq fun fo hf => hf) rfl rfl
  | inlRet t qi n rest th ht ho hl hthis =>
    exact Sy_upd hs ht (th' := { th with inl := rest }) (Or.inr rfl) (hs.o t th ht) _ (fun i q' h fo hf => ⟨q', h, hf⟩) rfl rfl
  | dgot t qi th q ht ho hq hi =>
    exact Sy_upd hs ht (th' := { th with op := .dgot qi }) (Or.inl (by simp [ho])) (by simp [opFo]) _ (same_content hq fun fo hf => hf) rfl rfl
  | dset t qi th q ht ho hq =>
    exact Sy_upd hs ht (th' := { th with op := .dterm qi }) (Or.inl (by simp [ho])) (by simp [opFo]) _ (same_content hq fun fo hf => hf) rfl rfl
  | dput t qi th q ht ho hq =>
    have hs1 : Sy { s with thr := s.thr.map (wakeOn th.this) } := by
      refine ⟨fun i q hq fo hf t ht => ?_, fun t x hx fo hf t' ht' => ?_, hs.b⟩
      · obtain ⟨y, h1, h2⟩ := hs.w i q hq fo hf t ht
        exact ⟨wakeOn th.this y, by simp [h1], by simp [wakeOn, h2]⟩
      · simp only [List.getElem?_map, Option.map_eq_some_iff] at hx
        obtain ⟨y, hy, rfl⟩ := hx
        refine hs.o t y hy fo ?_ t' ht'
        unfold wakeOn at hf
        split at hf
        · rename_i qj fo1 hop
          split at hf
          · simpa [opFo, hop] using hf
          · exact hf
        · exact hf
    have ht1 : (s.thr.map (wakeOn th.this))[t]? = some th := by simp [ht, wakeOn, ho]
    exact Sy_upd hs1 (t := t) (th := th) ht1 (th' := { th with op := .idle }) (Or.inl (by simp [ho])) (by simp [opFo]) _
      (same_content hq fun fo hf => hf) rfl rfl
  | own qi q q' th es hq ht ho hl hk hc =>
    refine Sy_upd hs ht (th' := th) (Or.inr rfl) (hs.o _ th ht) _ (same_content hq ?_) (set_self ht).symm rfl
    intro fo hf
    simp only [Q.outstanding, List.mem_append] at hf ⊢
    rcases hc with ⟨hp, _, _, hpe, rfl, rfl⟩ | ⟨fo', rest, m, hp, hb, rfl, rfl⟩ | ⟨hp, hb, rfl, rfl⟩ | ⟨fo', m, hp, rfl, rfl⟩ |
        ⟨fo', m, hp, _, rfl, rfl⟩ | ⟨fo', d, hp, hd, hf', rfl, rfl⟩ | ⟨fo', hp, rfl, rfl⟩ | ⟨hp, _, _, rfl, rfl⟩ | ⟨hp, _, rfl, rfl⟩ |
        ⟨hp, _, _, rfl, rfl⟩ | ⟨hp, _, _, rfl, rfl⟩ | ⟨hp, _, rfl, rfl⟩ <;> simp_all [curFo] <;> grind
  | doneQ qi d q dq th fo c hq ht ho hl hp hd hdq hdi hc =>
    refine Sy_upd hs ht (th' := { th with op := .got d c }) (Or.inl (by simp [ho])) ?_ _ ?_ rfl rfl
    · intro fo' hf t' ht'
      simp [opFo] at hf; subst hf; subst hc; simp at ht'
    · intro i x hx fo' hf
      have hqo : ∀ fo' ∈ ({ q with phase := .fin fo } : Q).outstanding, fo' ∈ q.outstanding := by
        intro fo' hf; simpa [Q.outstanding, curFo, hp] using hf
      rcases get_set hx with ⟨rfl, rfl⟩ | ⟨hne, hx⟩
      · by_cases hiq : i = qi
        · subst hiq
          rw [if_pos rfl] at hf
          exact ⟨q, hq, hqo fo' hf⟩
        · rw [if_neg hiq] at hf
          exact ⟨dq, hdq, hf⟩
      · rcases get_set hx with ⟨rfl, rfl⟩ | ⟨hne2, hx⟩
        · exact ⟨q, hq, hqo fo' hf⟩
        · exact ⟨x, hx, hf⟩
  | fin qi q th fo thr' bad' hq ht ho hl hp hc =>
    have hsub : ∀ fo' ∈ ({ q with phase := .sig, count := q.count - 1 } : Q).outstanding, fo' ∈ q.outstanding := by
      intro fo' hf; simp [Q.outstanding, curFo, hp] at hf ⊢; grind
    have hfo : fo ∈ q.outstanding := by simp [Q.outstanding, curFo, hp]
    rcases hc with ⟨_, rfl, rfl⟩ | ⟨t, tt, hsy, htt, hop, rfl, rfl⟩ | ⟨t, hsy, hno, rfl, rfl⟩
    · exact Sy_upd hs ht (th' := th) (Or.inr rfl) (hs.o _ th ht) _ (same_content hq hsub) (set_self ht).symm rfl
    · refine ⟨fun i q' hq' fo' hf u hu => ?_, fun u x hx fo' hf t' ht' => ?_, hs.b⟩
      · obtain ⟨y, hy, hfy⟩ := same_content hq hsub i q' hq' fo' hf
        obtain ⟨x, hx, hxo⟩ := hs.w i y hy fo' hfy u hu
        have hut : u ≠ t := by
          rintro rfl
          rw [htt] at hx; cases hx
          rw [hop] at hxo
          simp at hxo
          obtain ⟨rfl, rfl⟩ := hxo
          refine fin_unique hb hq hp ?_
          rcases get_set hq' with ⟨_, rfl⟩ | ⟨hne, _⟩
          · simpa [Q.outstanding, curFo] using hf
          · exact absurd rfl hne
        exact ⟨x, by rw [List.getElem?_set_ne (fun e => hut e.symm)]; exact hx, hxo⟩
      · rcases get_set hx with ⟨rfl, rfl⟩ | ⟨hne, hx⟩
        · simp [opFo] at hf; subst hf
          exact hs.o u tt htt fo (by simp [hop, opFo]) t' ht'
        · exact hs.o u x hx fo' hf t' ht'
    · obtain ⟨x, hx, hxo⟩ := hs.w qi q hq fo hfo t hsy
      exact absurd hxo (hno x hx)
  | sig qi q th thr' hq ht ho hl hp hc =>
    have hsub : ∀ fo' ∈ ({ q with phase := .next } : Q).outstanding, fo' ∈ q.outstanding := by
      intro fo' hf; simpa [Q.outstanding, curFo, hp] using hf
    rcases hc with ⟨_, rfl⟩ | ⟨w, tw, fo, htw, hop, rfl⟩
    · exact Sy_upd hs ht (th' := th) (Or.inr rfl) (hs.o _ th ht) _ (same_content hq hsub) (set_self ht).symm rfl
    · refine Sy_upd hs htw (th' := { tw with op := .woken qi fo }) (Or.inl (by simp [hop])) ?_ _ (same_content hq hsub) rfl rfl
      intro fo' hf
      simp [opFo] at hf; subst hf
      exact hs.o w tw htw fo (by simp [hop, opFo])

theorem Sy_reach : ∀ s, Reachable s → Sy s := by
  intro s hs
  have : Base s ∧ Sy s := by
    revert s
    exact reach_induction ⟨Base_init, ⟨by simp [init], by simp [init], rfl⟩⟩ fun s s' h ht => ⟨Base_tr h.1 ht, Sy_tr h.1 h.2 ht⟩
  exact this.2

end Verif.Mpq
