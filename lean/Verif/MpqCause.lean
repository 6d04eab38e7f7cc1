import Verif.MpqSync

/-! Causality of the log and blocked producers. -/

namespace Verif.Mpq

/-- What the log must already contain for a thread to be where it is. Models no code of its own. -/
structure VT (log : List Ev) (th : Thr) : Prop where
  a : ∀ i fo, th.op = .syncWait i fo true ∨ (th.op = .put i fo .ok ∧ fo.sync.isSome = true) → ftag fo ∈ finishedOn i log
  b : ∀ i fo, th.op = .put i fo .ok → ftag fo ∈ queuedOn i log
  b' : ∀ i fo x, th.op = .syncWait i fo x → ftag fo ∈ queuedOn i log
  c : ∀ n ∈ th.inl, ∀ q, th.this = some q → Ev.inlined q n ∈ log
  d : ∀ i fo, opFo th.op = some fo → opOn i th.op = 1 → fo.compl = true →
    ∃ q, Ev.returned q fo.n false .obj (some i) ∈ log

theorem VT_mono {log es : List Ev} {th : Thr} (h : VT log th) : VT (log ++ es) th := by
  refine ⟨fun i fo ho => ?_, fun i fo ho => ?_, fun i fo x ho => ?_, fun n hn q hq => ?_, fun i fo h1 h2 h3 => ?_⟩
  · rw [finishedOn_append]; exact List.mem_append_left _ (h.a i fo ho)
  · rw [queuedOn_append]; exact List.mem_append_left _ (h.b i fo ho)
  · rw [queuedOn_append]; exact List.mem_append_left _ (h.b' i fo x ho)
  · exact List.mem_append_left _ (h.c n hn q hq)
  · obtain ⟨q, hq⟩ := h.d i fo h1 h2 h3
    exact ⟨q, List.mem_append_left _ hq⟩

/-- For the statements and proofs about the models imported; models no code of its own. -/
def Vd (s : St) : Prop := ∀ (t : Nat) (th : Thr), s.thr[t]? = some th → VT s.log th

theorem Vd_upd {s : St} (hv : Vd s) {t : Nat} {th' : Thr} {es : List Ev} (h' : VT (s.log ++ es) th')
    (s' : St) (hth : s'.thr = s.thr.set t th') (hlog : s'.log = s.log ++ es) : Vd s' := by
  intro u x hx
  rw [hlog]
  rw [hth] at hx
  rcases get_set hx with ⟨rfl, rfl⟩ | ⟨hne, hx⟩
  · exact h'
  · exact VT_mono (hv u x hx)

theorem Vd_same {s : St} (hv : Vd s) {es : List Ev} (s' : St) (hth : s'.thr = s.thr) (hlog : s'.log = s.log ++ es) : Vd s' := by
  intro u x hx
  rw [hlog]; rw [hth] at hx
  exact VT_mono (hv u x hx)

theorem mem_returnedOn {i : Nat} {log : List Ev} {fo : Fo} {m : Mode} (h : full fo m ∈ returnedOn i log) :
    Ev.returned i fo.n fo.compl m fo.done ∈ log := by
  simp only [returnedOn, List.mem_filterMap] at h
  obtain ⟨e, he, hy⟩ := h
  cases e <;> simp [full] at hy
  obtain ⟨rfl, rfl, rfl, rfl, rfl⟩ := hy
  exact he

theorem Vd_tr {s s' : St} (hb : Base s) (hv : Vd s) (h : Tr s s') : Vd s' := by
  cases h with
  | skip => exact hv
  | spawn =>
    intro t th ht
    rcases get_append ht with ⟨rfl, rfl⟩ | ⟨_, ht⟩
    · constructor <;> simp [opFo]
    · exact hv t th ht
  | create m nb hm =>
    intro t th ht
    rcases get_append ht with ⟨rfl, rfl⟩ | ⟨_, ht⟩
    · constructor <;> simp [opFo]
    · exact hv t th ht
  | startErr t qi th sy dn rc ht hrc => exact Vd_same hv (es := [.called t qi s.next sy dn, .result t qi s.next sy rc]) _ rfl (by simp)
  | startInl t qi th ht ho hthis ha =>
    have h1 := VT_mono (es := [.called t qi s.next true none, .inlined qi s.next]) (hv t th ht)
    refine Vd_upd hv (t := t) (th' := { th with inl := s.next :: th.inl }) (es := [.called t qi s.next true none, .inlined qi s.next]) ?_ _ rfl (by simp)
    refine ⟨h1.a, h1.b, h1.b', fun n hn q hq => ?_, h1.d⟩
    rcases List.mem_cons.1 hn with rfl | hn
    · simp only at hq; rw [hthis] at hq; cases hq; simp
    · exact h1.c n hn q hq
  | startGot t qi th q fo op ht ho hq hi hn hc hnf hs hsd hself hop =>
    have h1 := VT_mono (es := [.called t qi fo.n fo.sync.isSome fo.done]) (hv t th ht)
    refine Vd_upd hv (t := t) (th' := { th with op := op }) (es := [.called t qi fo.n fo.sync.isSome fo.done]) ?_ _ rfl rfl
    rcases hop with rfl | ⟨rc, h2, h3, rfl⟩
    · exact ⟨by simp, by simp, by simp, h1.c, by simp [opFo, hc]⟩
    · refine ⟨by simp [h2], by simp [h2], by simp, h1.c, by simp [opFo, hc]⟩
  | addOk t qi th q fo ht ho hq hgd =>
    have h1 := VT_mono (es := [.queued qi fo.n fo.compl]) (hv t th ht)
    have hin : ftag fo ∈ queuedOn qi (s.log ++ [Ev.queued qi fo.n fo.compl]) := by
      simp [queuedOn_append, queuedOn, ftag]
    refine Vd_upd hv (t := t) (th' := { th with op := if fo.sync.isSome then .syncWait qi fo false else .put qi fo .ok })
      (es := [.queued qi fo.n fo.compl]) ?_ _ rfl rfl
    have hd := h1.d
    have hof : opFo th.op = some fo := by rcases ho with ho | ho <;> simp [ho, opFo]
    have hoo : ∀ i, opOn i th.op = if qi = i then 1 else 0 := by intro i; rcases ho with ho | ho <;> simp [ho, opOn]
    split
    · rename_i hsy
      refine ⟨by simp, by simp, ?_, h1.c, ?_⟩
      · intro i fo' x hx; simp at hx; obtain ⟨rfl, rfl, _⟩ := hx; exact hin
      · intro i fo' h2 h3 h4
        simp [opFo] at h2; subst h2
        refine hd i fo hof ?_ h4
        rw [hoo]; simpa [opOn] using h3
    · rename_i hsy
      refine ⟨?_, ?_, by simp, h1.c, ?_⟩
      · intro i fo' hx; simp at hx; obtain ⟨⟨rfl, rfl⟩, hx⟩ := hx; exact absurd hx hsy
      · intro i fo' hx; simp at hx; obtain ⟨rfl, rfl⟩ := hx; exact hin
      · intro i fo' h2 h3 h4
        simp [opFo] at h2; subst h2
        refine hd i fo hof ?_ h4
        rw [hoo]; simpa [opOn] using h3
  | addErr t qi th q fo rc ht ho hq hrc hw hei hwk =>
    have h1 := hv t th ht
    refine Vd_upd hv (t := t) (th' := { th with op := .put qi fo rc }) (es := []) ?_ _ rfl (by simp)
    rw [List.append_nil]
    refine ⟨by simp [hrc], by simp [hrc], by simp, h1.c, ?_⟩
    intro i fo' h2 h3 h4
    simp [opFo] at h2; subst h2
    refine h1.d i fo (by rcases ho with ho | ho <;> simp [ho, opFo]) ?_ h4
    rcases ho with ho | ho <;> simpa [opOn, ho] using h3
  | addSleep t qi th q fo ht ho hq hw hnb =>
    have h1 := hv t th ht
    refine Vd_upd hv (t := t) (th' := { th with op := .asleep qi fo }) (es := []) ?_ _ rfl (by simp)
    rw [List.append_nil]
    refine ⟨by simp, by simp, by simp, h1.c, ?_⟩
    intro i fo' h2 h3 h4
    simp [opFo] at h2; subst h2
    refine h1.d i fo (by rcases ho with ho | ho <;> simp [ho, opFo]) ?_ h4
    rcases ho with ho | ho <;> simpa [opOn, ho] using h3
  | wake t qi th fo ht ho =>
    have h1 := hv t th ht
    refine Vd_upd hv (t := t) (th' := { th with op := .woken qi fo }) (es := []) ?_ _ rfl (by simp)
    rw [List.append_nil]
    refine ⟨by simp, by simp, by simp, h1.c, ?_⟩
    intro i fo' h2 h3 h4
    simp [opFo] at h2; subst h2
    refine h1.d i fo (by simp [ho, opFo]) ?_ h4
    simpa [opOn, ho] using h3
  | syncRet t qi th fo ht ho =>
    have h1 := hv t th ht
    refine Vd_upd hv (t := t) (th' := { th with op := .put qi fo .ok }) (es := []) ?_ _ rfl (by simp)
    rw [List.append_nil]
    refine ⟨?_, ?_, by simp, h1.c, ?_⟩
    · intro i fo' hx; simp at hx; obtain ⟨⟨rfl, rfl⟩, hx⟩ := hx; exact h1.a qi fo (Or.inl ho)
    · intro i fo' hx; simp at hx; obtain ⟨rfl, rfl⟩ := hx; exact h1.b' qi fo true ho
    · intro i fo' h2 h3 h4
      simp [opFo] at h2; subst h2
      refine h1.d i fo (by simp [ho, opFo]) ?_ h4
      simpa [opOn, ho] using h3
  | put t qi th q fo rc ht ho hq =>
    have h1 := hv t th ht
    refine Vd_upd hv (t := t) (th' := { th with op := .idle }) (es := if fo.compl then [] else [.result t qi fo.n fo.sync.isSome rc]) ?_ _ rfl ?_
    · have h1 := VT_mono (es := if fo.compl then [] else [.result t qi fo.n fo.sync.isSome rc]) (hv t th ht)
      exact ⟨by simp, by simp, by simp, h1.c, by simp [opFo]⟩
    · split <;> simp
  | inlRet t qi n rest th ht ho hl hthis =>
    have h1 := VT_mono (es := [.inlineRet qi n, .result t qi n true .ok]) (hv t th ht)
    refine Vd_upd hv (t := t) (th' := { th with inl := rest }) (es := [.inlineRet qi n, .result t qi n true .ok]) ?_ _ rfl (by simp)
    refine ⟨h1.a, h1.b, h1.b', fun n hn q hq => h1.c n (by rw [hl]; simp; exact Or.inr hn) q hq, h1.d⟩
  | dgot t qi th q ht ho hq hi =>
    have h1 := hv t th ht
    refine Vd_upd hv (t := t) (th' := { th with op := .dgot qi }) (es := []) ?_ _ rfl (by simp)
    rw [List.append_nil]
    exact ⟨by simp, by simp, by simp, h1.c, by simp [opFo]⟩
  | dset t qi th q ht ho hq =>
    have h1 := hv t th ht
    refine Vd_upd hv (t := t) (th' := { th with op := .dterm qi }) (es := []) ?_ _ rfl (by simp)
    rw [List.append_nil]
    exact ⟨by simp, by simp, by simp, h1.c, by simp [opFo]⟩
  | dput t qi th q ht ho hq =>
    have h1 := hv t th ht
    have hv1 : Vd { s with thr := s.thr.map (wakeOn th.this) } := by
      intro u x hx
      simp only [List.getElem?_map, Option.map_eq_some_iff] at hx
      obtain ⟨y, hy, rfl⟩ := hx
      have h2 := hv u y hy
      unfold wakeOn
      split
      · rename_i qj fo1 hop
        split
        · refine ⟨by simp, by simp, by simp, h2.c, ?_⟩
          intro i fo' h3 h4 h5
          simp [opFo] at h3; subst h3
          refine h2.d i fo1 (by simp [hop, opFo]) ?_ h5
          simpa [opOn, hop] using h4
        · exact h2
      · exact h2
    refine Vd_upd hv1 (t := t) (th' := { th with op := .idle }) (es := []) ?_ _ rfl (by simp)
    rw [List.append_nil]
    exact ⟨by simp, by simp, by simp, h1.c, by simp [opFo]⟩
  | own qi q q' th es hq ht ho hl hk hc => exact Vd_same hv _ rfl rfl
  | doneQ qi d q dq th fo c hq ht ho hl hp hd hdq hdi hc =>
    have h1 := hv _ th ht
    refine Vd_upd hv (t := q.thr) (th' := { th with op := .got d c }) (es := []) ?_ _ rfl (by simp)
    rw [List.append_nil]
    refine ⟨by simp, by simp, by simp, h1.c, ?_⟩
    intro i fo' h2 h3 h4
    simp [opFo] at h2; subst h2
    have : d = i := by
      by_cases hdi : d = i
      · exact hdi
      · simp [opOn, hdi] at h3
    subst this
    have hm := mem_returnedOn ((hb.g.q qi q hq).ps fo .obj hp)
    have hfc : fo.compl = false := by
      cases hc : fo.compl
      · rfl
      · have := ((hb.w.q qi q hq fo (by simp [Q.outstanding, hp, curFo])).1 hc).2.1
        rw [this] at hd; simp at hd
    rw [hd, hfc] at hm
    subst hc
    exact ⟨qi, hm⟩
  | fin qi q th fo thr' bad' hq ht ho hl hp hc =>
    rcases hc with ⟨_, rfl, _⟩ | ⟨t, tt, hs, htt, hop, rfl, _⟩ | ⟨t, hs, _, rfl, _⟩
    · exact Vd_same hv _ rfl rfl
    · have h1 := VT_mono (es := [.finished qi fo.n fo.compl]) (hv t tt htt)
      refine Vd_upd hv (t := t) (th' := { tt with op := .syncWait qi fo true }) (es := [.finished qi fo.n fo.compl]) ?_ _ rfl rfl
      refine ⟨?_, by simp, ?_, h1.c, ?_⟩
      · intro i fo' hx; simp at hx; obtain ⟨rfl, rfl⟩ := hx
        simp [finishedOn_append, finishedOn, ftag]
      · intro i fo' x hx; simp at hx; obtain ⟨rfl, rfl, _⟩ := hx; exact h1.b' qi fo false hop
      · intro i fo' h2 h3 h4
        simp [opFo] at h2; subst h2
        refine h1.d i fo (by simp [hop, opFo]) ?_ h4
        simpa [opOn, hop] using h3
    · exact Vd_same hv _ rfl rfl
  | sig qi q th thr' hq ht ho hl hp hc =>
    rcases hc with ⟨_, rfl⟩ | ⟨w, tw, fo, htw, hop, rfl⟩
    · exact Vd_same hv (es := []) _ rfl (by simp)
    · have h1 := hv w tw htw
      refine Vd_upd hv (t := w) (th' := { tw with op := .woken qi fo }) (es := []) ?_ _ rfl (by simp)
      rw [List.append_nil]
      refine ⟨by simp, by simp, by simp, h1.c, ?_⟩
      intro i fo' h2 h3 h4
      simp [opFo] at h2; subst h2
      refine h1.d i fo (by simp [hop, opFo]) ?_ h4
      simpa [opOn, hop] using h3

/-! ### Causality -/

/-- What must have happened before event `e`. Models no code of its own. -/
def Cause (l : List Ev) : Ev → Prop
  | .result _ q n true .ok => (∃ m d, Ev.returned q n false m d ∈ l) ∨ Ev.inlineRet q n ∈ l
  | .result _ q n false .ok => Ev.queued q n false ∈ l
  | .invoked q n c _ _ => Ev.queued q n c ∈ l
  | .returned q n c m d => Ev.invoked q n c m d ∈ l
  | .queued d n true => ∃ q, Ev.returned q n false .obj (some d) ∈ l
  | .localFree q n => ∃ d, Ev.returned q n false .obj (some d) ∈ l
  | .inlineRet q n => Ev.inlined q n ∈ l
  | _ => True

/-- For the statements and proofs about the models imported; models no code of its own. -/
def Causal (log : List Ev) : Prop := ∀ l1 e l2, log = l1 ++ e :: l2 → Cause l1 e

theorem causal_snoc {log : List Ev} (h : Causal log) {e : Ev} (he : Cause log e) : Causal (log ++ [e]) := by
  intro l1 e' l2 heq
  rcases List.eq_nil_or_concat l2 with rfl | ⟨l2', x, rfl⟩
  · have := List.append_inj' heq rfl
    obtain ⟨rfl, h2⟩ := this
    simp at h2; subst h2; exact he
  · have h3 : log ++ [e] = (l1 ++ e' :: l2') ++ [x] := by simp [heq]
    have := List.append_inj' h3 rfl
    exact h l1 e' l2' this.1

theorem mem_queuedOn {i : Nat} {log : List Ev} {n : Nat} {c : Bool} (h : (n, c) ∈ queuedOn i log) : Ev.queued i n c ∈ log := by
  simp only [queuedOn, List.mem_filterMap] at h
  obtain ⟨e, he, hy⟩ := h
  cases e <;> simp at hy
  obtain ⟨rfl, rfl, rfl⟩ := hy
  exact he

theorem mem_invokedOn {i : Nat} {log : List Ev} {n : Nat} {c : Bool} {m : Mode} {d : Option Nat} (h : (n, c, m, d) ∈ invokedOn i log) :
    Ev.invoked i n c m d ∈ log := by
  simp only [invokedOn, List.mem_filterMap] at h
  obtain ⟨e, he, hy⟩ := h
  cases e <;> simp at hy
  obtain ⟨rfl, rfl, rfl, rfl, rfl⟩ := hy
  exact he

theorem mem_returnedOn' {i : Nat} {log : List Ev} {n : Nat} {c : Bool} (h : (n, c) ∈ (returnedOn i log).map tag) :
    ∃ m d, Ev.returned i n c m d ∈ log := by
  simp only [returnedOn, List.mem_map, List.mem_filterMap, tag] at h
  obtain ⟨⟨n', c', m, d⟩, ⟨e, he, hy⟩, heq⟩ := h
  cases e <;> simp at hy
  obtain ⟨rfl, rfl, rfl, rfl, rfl⟩ := hy
  simp at heq
  obtain ⟨rfl, rfl⟩ := heq
  exact ⟨_, _, he⟩

theorem Causal_tr {s s' : St} (hb : Base s) (hv : Vd s) (hc : Causal s.log) (h : Tr s s') : Causal s'.log := by
  cases h with
  | skip => exact hc
  | spawn => exact hc
  | create m nb hm => exact hc
  | startErr t qi th sy dn rc ht hrc =>
    refine causal_snoc (causal_snoc hc (by simp [Cause])) ?_
    cases sy <;> cases rc <;> simp [Cause] at hrc ⊢
  | startInl t qi th ht ho hthis ha => exact causal_snoc (causal_snoc hc (by simp [Cause])) (by simp [Cause])
  | startGot => exact causal_snoc hc (by simp [Cause])
  | addOk t qi th q fo ht ho hq hgd =>
    refine causal_snoc hc ?_
    cases hfc : fo.compl
    · simp [Cause]
    · simp only [Cause]
      refine (hv t th ht).d qi fo ?_ ?_ hfc
      · rcases ho with ho | ho <;> simp [ho, opFo]
      · rcases ho with ho | ho <;> simp [ho, opOn]
  | addErr => exact hc
  | addSleep => exact hc
  | wake => exact hc
  | syncRet => exact hc
  | put t qi th q fo rc ht ho hq =>
    simp only
    split
    · exact hc
    · rename_i hfc
      refine causal_snoc hc ?_
      have hfc' : fo.compl = false := by simpa using hfc
      have h1 := hv t th ht
      by_cases hr : rc = .ok
      · subst hr
        cases hsy : fo.sync.isSome
        · have := h1.b qi fo ho
          simp only [Cause]
          simp only [ftag, hfc'] at this
          exact mem_queuedOn this
        · have := h1.a qi fo (Or.inr ⟨ho, hsy⟩)
          simp only [Cause]
          left
          have h2 := (hb.g.q qi q hq).rt
          refine mem_returnedOn' (c := false) ?_
          rw [h2]
          simp only [ftag, hfc'] at this
          exact List.mem_append_left _ this
      · cases fo.sync.isSome <;> cases rc <;> simp [Cause] at hr ⊢
  | inlRet t qi n rest th ht ho hl hthis =>
    have h1 := hv t th ht
    refine causal_snoc (causal_snoc hc ?_) ?_
    · exact h1.c n (by simp [hl]) qi hthis
    · simp [Cause]
  | dgot => exact hc
  | dset => exact hc
  | dput => exact hc
  | own qi q q' th es hq ht ho hl hk hcc =>
    have hg := hb.g.q qi q hq
    rcases hcc with ⟨hp, _, _, hpe, rfl, rfl⟩ | ⟨fo', rest, m, hp, hbt, rfl, rfl⟩ | ⟨hp, hbt, rfl, rfl⟩ | ⟨fo', m, hp, rfl, rfl⟩ |
        ⟨fo', m, hp, _, rfl, rfl⟩ | ⟨fo', d, hp, hd, hf', rfl, rfl⟩ | ⟨fo', hp, rfl, rfl⟩ | ⟨hp, _, _, rfl, rfl⟩ | ⟨hp, _, rfl, rfl⟩ |
        ⟨hp, _, _, rfl, rfl⟩ | ⟨hp, _, _, rfl, rfl⟩ | ⟨hp, _, rfl, rfl⟩
    all_goals try (simpa using hc)
    · refine causal_snoc hc ?_
      simp only [Cause]
      apply mem_queuedOn
      rw [hg.qd, hbt]
      simp [ftag]
    · refine causal_snoc hc ?_
      simp only [Cause]
      apply mem_invokedOn
      rw [hg.iv, hp]
      simp [running, full]
    · refine causal_snoc hc ?_
      simp only [Cause]
      have hm := mem_returnedOn (hg.ps fo' .obj hp)
      have hfc : fo'.compl = false := by
        cases hc : fo'.compl
        · rfl
        · have := ((hb.w.q qi q hq fo' (by simp [Q.outstanding, hp, curFo])).1 hc).2.1
          rw [this] at hd; simp at hd
      rw [hd, hfc] at hm
      exact ⟨d, hm⟩
  | doneQ => exact hc
  | fin qi q th fo thr' bad' hq ht ho hl hp hcc => exact causal_snoc hc (by simp [Cause])
  | sig => exact hc

theorem Cause_reach : ∀ s, Reachable s → Base s ∧ Vd s ∧ Causal s.log :=
  reach_induction ⟨Base_init, by intro t th h; simp [init] at h, by intro l1 e l2 h; simp [init] at h⟩
    fun s s' h ht => ⟨Base_tr h.1 ht, Vd_tr h.1 h.2.1 ht, Causal_tr h.1 h.2.1 h.2.2 ht⟩

end Verif.Mpq
