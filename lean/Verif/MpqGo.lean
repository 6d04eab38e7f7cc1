import Verif.MpqBlock

/-! Progress: what the queue's own thread can do by itself. -/

namespace Verif.Mpq

/-- Steps of queue `i`'s own thread `tq`: consumer steps, and the two steps with which
it hands a completion to another queue. Models no code of its own. -/
def ownAct (i tq : Nat) : Act → Bool
  | .take q => q == i
  | .invoke q _ => q == i
  | .loopEnd q => q == i
  | .ret q => q == i
  | .done q => q == i
  | .freeRet q => q == i
  | .fin q => q == i
  | .sig q _ => q == i
  | .add t => t == tq
  | .put t => t == tq
  | .exit q => q == i
  | .uninst q => q == i
  | .seenOne q => q == i
  | .drained q => q == i
  | .free q => q == i
  | _ => false

/-- For the statements and proofs about the models imported; models no code of its own. -/
def Go (i tq : Nat) (s s' : St) : Prop := ∃ acts, (∀ a ∈ acts, ownAct i tq a = true) ∧ run s acts = some s'

theorem run_append {s s' : St} {as bs : List Act} (h : run s as = some s') : run s (as ++ bs) = run s' bs := by
  induction as generalizing s with
  | nil => simp [run] at h; simp [h]
  | cons a as ih =>
    simp only [run, List.cons_append] at h ⊢
    split at h
    · rename_i s1 h1
      exact ih h
    · simp at h

theorem Go.refl (i tq : Nat) (s : St) : Go i tq s s := ⟨[], by simp, rfl⟩
theorem Go.trans {i tq : Nat} {s s' s'' : St} (h1 : Go i tq s s') (h2 : Go i tq s' s'') : Go i tq s s'' := by
  obtain ⟨a, ha, hra⟩ := h1
  obtain ⟨b, hb, hrb⟩ := h2
  refine ⟨a ++ b, ?_, by rw [run_append hra, hrb]⟩
  intro x hx
  rcases List.mem_append.1 hx with h | h
  · exact ha x h
  · exact hb x h
theorem Go.one {i tq : Nat} {s s' : St} {a : Act} (ha : ownAct i tq a = true) (h : step s a = some s') : Go i tq s s' :=
  ⟨[a], by simp [ha], by simp [run, h]⟩

theorem Go.reach {i tq : Nat} {s s' : St} (h : Go i tq s s') (hr : Reachable s) : Reachable s' := by
  obtain ⟨as, _, h⟩ := h
  obtain ⟨bs, hb⟩ := hr
  exact ⟨bs ++ as, by rw [run_append hb, h]⟩

/-- The queue's own thread is not inside a library call or an inlined function. Models no code of its own. -/
def IdleQ (s : St) (i : Nat) (q : Q) : Prop :=
  s.qs[i]? = some q ∧ ∃ th, s.thr[q.thr]? = some th ∧ th.op = .idle ∧ th.inl = []

/-- For the statements and proofs about the models imported; models no code of its own. -/
structure Keep (i : Nat) (s s' : St) (q q' : Q) : Prop where
  t : q'.thr = q.thr
  st : q'.stage = q.stage
  te : q'.term = q.term
  ins : q'.installed = q.installed
  us : tot (holds i) s'.thr = tot (holds i) s.thr

theorem Keep.trans {i : Nat} {s s' s'' : St} {q q' q'' : Q} (a : Keep i s s' q q') (b : Keep i s' s'' q' q'') : Keep i s s'' q q'' :=
  ⟨b.t.trans a.t, b.st.trans a.st, b.te.trans a.te, b.ins.trans a.ins, b.us.trans a.us⟩

/-- One simple own step. -/
theorem simple {s : St} {i : Nat} {q q' : Q} {a : Act} {es : List Ev} (hi : IdleQ s i q) (ha : ownAct i q.thr a = true)
    (hs : step s a = some { s with qs := s.qs.set i q', log := s.log ++ es }) (ht : q'.thr = q.thr) (h2 : q'.stage = q.stage)
    (h3 : q'.term = q.term) (h4 : q'.installed = q.installed) :
    Go i q.thr s { s with qs := s.qs.set i q', log := s.log ++ es } ∧
    IdleQ { s with qs := s.qs.set i q', log := s.log ++ es } i q' ∧
    Keep i s { s with qs := s.qs.set i q', log := s.log ++ es } q q' := by
  obtain ⟨hq, th, hth, ho, hl⟩ := hi
  refine ⟨Go.one ha hs, ⟨?_, th, by rw [ht]; exact hth, ho, hl⟩, ⟨ht, h2, h3, h4, rfl⟩⟩
  simp [lt_of_get hq]

/-- `∃` a state reached by own steps, with the own thread idle again. Models no code of its own. -/
def Next (s : St) (i : Nat) (q : Q) (P : St → Q → Prop) : Prop :=
  ∃ s' q', Go i q.thr s s' ∧ IdleQ s' i q' ∧ Keep i s s' q q' ∧ P s' q'

theorem Next.bind {s : St} {i : Nat} {q : Q} {P R : St → Q → Prop} (h : Next s i q P)
    (k : ∀ s' q', Go i q.thr s s' → IdleQ s' i q' → P s' q' → Next s' i q' R) : Next s i q R := by
  obtain ⟨s', q', hg, hi, hk, hp⟩ := h
  obtain ⟨s2, q2, hg2, hi2, hk2, hr⟩ := k s' q' hg hi hp
  exact ⟨s2, q2, hg.trans (hk.t ▸ hg2), hi2, hk.trans hk2, hr⟩

theorem n_ret {s : St} {i : Nat} {q : Q} (hi : IdleQ s i q) {fo : Fo} {m : Mode} (hp : q.phase = .run fo m) :
    Next s i q fun s' q' => q' = { q with phase := .post fo m } ∧ s'.log = s.log ++ [.returned i fo.n fo.compl m fo.done] := by
  obtain ⟨hq, th, hth, ho, hl⟩ := id hi
  have h := simple hi (a := .ret i) (q' := { q with phase := .post fo m }) (es := [.returned i fo.n fo.compl m fo.done]) (by simp [ownAct])
    (by simp [step, doRet, ownStep, hq, St.free, hth, ho, hl, hp, St.setQ, St.emit]) rfl rfl rfl rfl
  exact ⟨_, _, h.1, h.2.1, h.2.2, rfl, rfl⟩

theorem n_freeRet {s : St} {i : Nat} {q : Q} (hi : IdleQ s i q) {fo : Fo} (hp : q.phase = .runFree fo) :
    Next s i q fun s' q' => q' = { q with phase := .fin fo } ∧ s'.log = s.log := by
  obtain ⟨hq, th, hth, ho, hl⟩ := id hi
  have h := simple hi (a := .freeRet i) (q' := { q with phase := .fin fo }) (es := []) (by simp [ownAct])
    (by simp [step, doFreeRet, ownStep, hq, St.free, hth, ho, hl, hp, St.setQ]) rfl rfl rfl rfl
  exact ⟨_, _, h.1, h.2.1, h.2.2, rfl, by simp⟩

/-- `s'.log` extends `s.log`. Models no code of its own. -/
def Ext (s s' : St) : Prop := ∃ es, s'.log = s.log ++ es

theorem Ext.refl (s : St) : Ext s s := ⟨[], by simp⟩
theorem Ext.trans {a b c : St} (h1 : Ext a b) (h2 : Ext b c) : Ext a c := by
  obtain ⟨x, hx⟩ := h1; obtain ⟨y, hy⟩ := h2
  exact ⟨x ++ y, by rw [hy, hx]; simp⟩

theorem e_add {s : St} {t d : Nat} {th : Thr} {dq : Q} {c : Fo} (hth : s.thr[t]? = some th) (hop : th.op = .got d c) (hdq : s.qs[d]? = some dq)
    (h1 : c.noFail = true) (h2 : c.done = none) (h3 : c.sync = none) :
    step s (.add t) = some { s with qs := s.qs.set d { dq with pend := dq.pend ++ [c], count := dq.count + 1 },
                                    thr := s.thr.set t { th with op := .put d c .ok }, log := s.log ++ [.queued d c.n c.compl] } := by
  simp [step, doAdd, hth, hop, hdq, h1, h2, h3, lockedAdd, St.setQ, St.setT, St.emit]

theorem e_put {s : St} {t d : Nat} {th : Thr} {dq : Q} {c : Fo} {rc : Rc} (hth : s.thr[t]? = some th) (hop : th.op = .put d c rc) (hdq : s.qs[d]? = some dq)
    (h1 : c.compl = true) :
    step s (.put t) = some { s with qs := s.qs.set d { dq with usage := dq.usage - 1 }, thr := s.thr.set t { th with op := .idle } } := by
  simp [step, doPut, hth, hop, hdq, h1, St.setQ, St.setT]

/-- Handing a completion over: after `done`, the thread adds and returns. -/
theorem e_compl {s : St} {t d : Nat} {th : Thr} {dq : Q} {c : Fo} (hth : s.thr[t]? = some th) (hop : th.op = .got d c) (hdq : s.qs[d]? = some dq)
    (h0 : c.compl = true) (h1 : c.noFail = true) (h2 : c.done = none) (h3 : c.sync = none) (i : Nat) :
    Go i t s { s with qs := s.qs.set d { dq with pend := dq.pend ++ [c], count := dq.count + 1, usage := dq.usage - 1 },
                      thr := s.thr.set t { th with op := .idle }, log := s.log ++ [.queued d c.n c.compl] } := by
  have a1 := e_add hth hop hdq h1 h2 h3
  refine (Go.one (by simp [ownAct]) a1).trans (Go.one (a := .put t) (by simp [ownAct]) ?_)
  rw [e_put (th := { th with op := .put d c .ok }) (d := d) (dq := { dq with pend := dq.pend ++ [c], count := dq.count + 1 }) (c := c) (rc := .ok)
    (List.getElem?_set_self (lt_of_get hth)) rfl (List.getElem?_set_self (lt_of_get hdq)) h0]
  simp only [List.set_set]

theorem e_done {s : St} {i d : Nat} {q dq : Q} {th : Thr} {fo : Fo} {m : Mode} (hq : s.qs[i]? = some q) (hth : s.thr[q.thr]? = some th)
    (ho : th.op = .idle) (hl : th.inl = []) (hp : q.phase = .post fo m) (hd : fo.done = some d) (hm : m ≠ .freeOnly) (hf : s.find d = some dq)
    {y : Q} (hy : (s.qs.set i { q with phase := .fin fo })[d]? = some y) :
    step s (.done i) = some { s with qs := (s.qs.set i { q with phase := .fin fo }).set d { y with usage := y.usage + 1 },
                                     thr := s.thr.set q.thr { th with op := .got d { n := fo.n, compl := true, sync := none, done := none, noFail := true } } } := by
  simp [step, doDone, ownStep, hq, St.free, hth, ho, hl, hp, St.setQ, St.setT, hd, hm, hf, hy]

theorem n_done {s : St} {i : Nat} {q : Q} (hi : IdleQ s i q) {fo : Fo} {m : Mode} (hp : q.phase = .post fo m) :
    Next s i q fun s' q' => q'.phase = .fin fo ∧ q'.batch = q.batch ∧ (∃ x, q'.pend = q.pend ++ x ∧ (m = .freeOnly → x = []) ∧ (q.installed = false → x = [])) ∧ Ext s s' := by
  obtain ⟨hq, th, hth, ho, hl⟩ := id hi
  by_cases h0 : fo.done = none ∨ m = .freeOnly
  · have h := simple hi (a := .done i) (q' := { q with phase := .fin fo }) (es := []) (by simp [ownAct])
      (by
        rcases h0 with h0 | h0
        · simp [step, doDone, ownStep, hq, St.free, hth, ho, hl, hp, St.setQ, h0]
        · cases hd : fo.done <;> simp [step, doDone, ownStep, hq, St.free, hth, ho, hl, hp, St.setQ, h0, hd]) rfl rfl rfl rfl
    exact ⟨_, _, h.1, h.2.1, h.2.2, rfl, rfl, ⟨[], by simp⟩, ⟨[], by simp⟩⟩
  · obtain ⟨d, hd⟩ : ∃ d, fo.done = some d := by
      cases hd : fo.done with
      | none => simp [hd] at h0
      | some d => exact ⟨d, rfl⟩
    have hm : m ≠ .freeOnly := by simp [hd] at h0; exact h0
    cases hf : s.find d with
    | none =>
      have h := simple hi (a := .done i) (q' := { q with phase := .runFree fo }) (es := [.localFree i fo.n]) (by simp [ownAct])
        (by simp [step, doDone, ownStep, hq, St.free, hth, ho, hl, hp, St.setQ, St.emit, hd, hm, hf]) rfl rfl rfl rfl
      obtain ⟨s2, q2, hg, hi2, hk2, hp2⟩ := n_freeRet h.2.1 (fo := fo) rfl
      refine ⟨s2, q2, h.1.trans hg, hi2, h.2.2.trans hk2, ?_⟩
      obtain ⟨rfl, hp2⟩ := hp2
      exact ⟨rfl, rfl, ⟨[], by simp⟩, ⟨_, hp2⟩⟩
    | some dq =>
      obtain ⟨hdq, hdi⟩ := find_some hf
      let c : Fo := { n := fo.n, compl := true, sync := none, done := none, noFail := true }
      obtain ⟨y, hy, hyy⟩ : ∃ y, (s.qs.set i { q with phase := .fin fo })[d]? = some y ∧ (if d = i then y = { q with phase := .fin fo } else y = dq) := by
        by_cases hdi2 : d = i
        · subst hdi2
          exact ⟨_, List.getElem?_set_self (lt_of_get hq), by simp⟩
        · exact ⟨dq, by rw [List.getElem?_set_ne (fun e => hdi2 e.symm)]; exact hdq, by simp [hdi2]⟩
      have e1 := e_done hq hth ho hl hp hd hm hf hy
      have hdl : d < (s.qs.set i { q with phase := .fin fo }).length := lt_of_get hy
      have e2 := e_compl (s := { s with qs := (s.qs.set i { q with phase := .fin fo }).set d { y with usage := y.usage + 1 }, thr := s.thr.set q.thr { th with op := .got d c } }) (t := q.thr) (d := d) (c := c) (List.getElem?_set_self (lt_of_get hth)) rfl
          (List.getElem?_set_self hdl) rfl rfl rfl rfl i
      have e3 := (Go.one (i := i) (tq := q.thr) (by simp [ownAct]) e1).trans e2
      simp only [List.set_set, Nat.add_sub_cancel] at e3
      have hthr : s.thr.set q.thr { th with op := .idle } = s.thr := by
        have : th = { th with op := .idle } := by rw [← ho]
        rw [← this]; exact set_self hth
      rw [hthr] at e3
      by_cases hdi2 : d = i
      · subst hdi2
        have hqq : dq = q := by rw [hq] at hdq; cases hdq; rfl
        subst hqq
        rw [if_pos rfl] at hyy
        subst hyy
        refine ⟨_, { dq with phase := .fin fo, pend := dq.pend ++ [c], count := dq.count + 1 }, e3, ⟨by simp only [List.set_set]; exact List.getElem?_set_self (lt_of_get hq), th, hth, ho, hl⟩, ⟨rfl, rfl, rfl, rfl, rfl⟩,
          rfl, rfl, ⟨[c], rfl, fun h => absurd h hm, fun h => by rw [h] at hdi; simp at hdi⟩, ⟨_, rfl⟩⟩
      · rw [if_neg hdi2] at hyy
        subst hyy
        refine ⟨_, { q with phase := .fin fo }, e3, ⟨?_, th, hth, ho, hl⟩, ⟨rfl, rfl, rfl, rfl, rfl⟩,
          rfl, rfl, ⟨[], by simp, fun _ => rfl, fun _ => rfl⟩, ⟨_, rfl⟩⟩
        simp only
        rw [List.getElem?_set_ne hdi2]
        exact List.getElem?_set_self (lt_of_get hq)

theorem n_fin {s : St} {i : Nat} {q : Q} (hi : IdleQ s i q) {fo : Fo} (hp : q.phase = .fin fo) :
    Next s i q fun s' q' => q'.phase = .sig ∧ q'.batch = q.batch ∧ q'.pend = q.pend ∧ Ext s s' := by
  obtain ⟨hq, th, hth, ho, hl⟩ := id hi
  let q1 : Q := { q with phase := .sig, count := q.count - 1 }
  by_cases h0 : ∃ t tt, fo.sync = some t ∧ s.thr[t]? = some tt ∧ tt.op = .syncWait i fo false
  · obtain ⟨t, tt, hs, htt, hop⟩ := h0
    have hne : t ≠ q.thr := by
      rintro rfl
      rw [hth] at htt; cases htt; rw [ho] at hop; cases hop
    let s1 : St := { s with qs := s.qs.set i q1, log := s.log ++ [.finished i fo.n fo.compl], thr := s.thr.set t { tt with op := .syncWait i fo true } }
    have e1 : step s (.fin i) = some s1 := by
      simp [step, doFin, ownStep, hq, St.free, hth, ho, hl, hp, St.setQ, St.emit, hs, htt, hop, St.setT, s1, q1]
    refine ⟨s1, q1, Go.one (by simp [ownAct]) e1, ⟨by simp [s1, lt_of_get hq], th, ?_, ho, hl⟩, ⟨rfl, rfl, rfl, rfl, ?_⟩, rfl, rfl, rfl, ⟨_, rfl⟩⟩
    · simp [s1, q1, List.getElem?_set_ne hne, hth]
    · have := tot_set (holds i) htt { tt with op := .syncWait i fo true }
      simp [holds, opOn, hop] at this
      simp only [s1]; exact this
  · cases hs : fo.sync with
    | none =>
      have h := simple hi (a := .fin i) (q' := q1) (es := [.finished i fo.n fo.compl]) (by simp [ownAct])
        (by simp [step, doFin, ownStep, hq, St.free, hth, ho, hl, hp, St.setQ, St.emit, hs, q1]) rfl rfl rfl rfl
      exact ⟨_, _, h.1, h.2.1, h.2.2, rfl, rfl, rfl, ⟨_, rfl⟩⟩
    | some t =>
      let s1 : St := { s with qs := s.qs.set i q1, log := s.log ++ [.finished i fo.n fo.compl], bad := true }
      have e1 : step s (.fin i) = some s1 := by
        cases htt : s.thr[t]? with
        | none => simp [step, doFin, ownStep, hq, St.free, hth, ho, hl, hp, St.setQ, St.emit, hs, htt, s1, q1]
        | some tt =>
          have hop : ¬ tt.op = .syncWait i fo false := fun e => h0 ⟨t, tt, hs, htt, e⟩
          simp [step, doFin, ownStep, hq, St.free, hth, ho, hl, hp, St.setQ, St.emit, hs, htt, hop, s1, q1]
      exact ⟨s1, q1, Go.one (by simp [ownAct]) e1, ⟨by simp [s1, lt_of_get hq], th, hth, ho, hl⟩, ⟨rfl, rfl, rfl, rfl, rfl⟩, rfl, rfl, rfl, ⟨_, rfl⟩⟩

theorem n_sig {s : St} {i : Nat} {q : Q} (hi : IdleQ s i q) (hp : q.phase = .sig) :
    Next s i q fun s' q' => q'.phase = .next ∧ q'.batch = q.batch ∧ q'.pend = q.pend ∧ Ext s s' := by
  obtain ⟨hq, th, hth, ho, hl⟩ := id hi
  let q1 : Q := { q with phase := .next }
  cases ha : s.thr.any (asleepOn i) with
  | false =>
    have h := simple hi (a := .sig i 0) (q' := q1) (es := []) (by simp [ownAct])
      (by
        simp only [step, doSig, ownStep, hq, St.free, hth, ho, hl, hp, St.setQ, ha, Option.bind_eq_bind, Option.bind_some]
        simp [q1]) rfl rfl rfl rfl
    exact ⟨_, _, h.1, h.2.1, h.2.2, rfl, rfl, rfl, ⟨_, rfl⟩⟩
  | true =>
    obtain ⟨tw, hm, hw⟩ := List.any_eq_true.1 ha
    obtain ⟨w, hwl, rfl⟩ := List.getElem_of_mem hm
    unfold asleepOn at hw
    split at hw
    · rename_i qj fo hop
      simp at hw; subst hw
      have htw : s.thr[w]? = some s.thr[w] := by simp [hwl]
      have hne : w ≠ q.thr := by
        rintro rfl
        rw [hth] at htw; injection htw with htw; rw [← htw, ho] at hop; cases hop
      let s1 : St := { s with qs := s.qs.set qj q1, thr := s.thr.set w { s.thr[w] with op := .woken qj fo } }
      have e1 : step s (.sig qj w) = some s1 := by
        simp only [step, doSig, ownStep, hq, St.free, hth, ho, hl, hp, St.setQ, ha, htw, hop, St.setT, Option.bind_eq_bind, Option.bind_some]
        simp [s1, q1]
      refine ⟨s1, q1, Go.one (by simp [ownAct]) e1, ⟨by simp [s1, lt_of_get hq], th, ?_, ho, hl⟩, ⟨rfl, rfl, rfl, rfl, ?_⟩, rfl, rfl, rfl, ⟨[], by simp [s1]⟩⟩
      · simp [s1, q1, List.getElem?_set_ne hne, hth]
      · have := tot_set (holds qj) htw { s.thr[w] with op := .woken qj fo }
        simp [holds, opOn, hop] at this
        simp only [s1]; exact this
    · simp at hw

theorem n_invoke {s : St} {i : Nat} {q : Q} (hi : IdleQ s i q) (m : Mode) {fo : Fo} {rest : List Fo} (hp : q.phase = .next) (hb : q.batch = fo :: rest) :
    Next s i q fun s' q' => q' = { q with batch := rest, phase := .run fo m } ∧ s'.log = s.log ++ [.invoked i fo.n fo.compl m fo.done] := by
  obtain ⟨hq, th, hth, ho, hl⟩ := id hi
  have h := simple hi (a := .invoke i m) (q' := { q with batch := rest, phase := .run fo m }) (es := [.invoked i fo.n fo.compl m fo.done]) (by simp [ownAct])
    (by simp [step, doInvoke, ownStep, hq, St.free, hth, ho, hl, hp, hb, St.setQ, St.emit]) rfl rfl rfl rfl
  exact ⟨_, _, h.1, h.2.1, h.2.2, rfl, rfl⟩

theorem n_loopEnd {s : St} {i : Nat} {q : Q} (hi : IdleQ s i q) (hp : q.phase = .next) (hb : q.batch = []) :
    Next s i q fun s' q' => q' = { q with phase := .poll } ∧ s'.log = s.log := by
  obtain ⟨hq, th, hth, ho, hl⟩ := id hi
  have h := simple hi (a := .loopEnd i) (q' := { q with phase := .poll }) (es := []) (by simp [ownAct])
    (by simp [step, doLoopEnd, ownStep, hq, St.free, hth, ho, hl, hp, hb, St.setQ]) rfl rfl rfl rfl
  exact ⟨_, _, h.1, h.2.1, h.2.2, rfl, by simp⟩

theorem n_take {s : St} {i : Nat} {q : Q} (hi : IdleQ s i q) (hp : q.phase = .poll) (hs : q.stage ≠ .fini ∧ q.stage ≠ .dead) (hb : q.pend ≠ []) :
    Next s i q fun s' q' => q' = { q with batch := q.pend, pend := [], phase := .next } ∧ s'.log = s.log := by
  obtain ⟨hq, th, hth, ho, hl⟩ := id hi
  have h := simple hi (a := .take i) (q' := { q with batch := q.pend, pend := [], phase := .next }) (es := []) (by simp [ownAct])
    (by
      obtain ⟨h1, h2⟩ := hs
      cases hst : q.stage <;> simp_all [step, doTake, ownStep, St.free, St.setQ]) rfl rfl rfl rfl
  exact ⟨_, _, h.1, h.2.1, h.2.2, rfl, by simp⟩

/-- The own thread can always come back to the head of its loop, or to its poll. -/
theorem to_head {s : St} {i : Nat} {q : Q} (hi : IdleQ s i q) :
    Next s i q fun s' q' => (q'.phase = .next ∨ (q.phase = .poll ∧ q'.phase = .poll)) ∧ q'.batch = q.batch ∧
      (∃ x, q'.pend = q.pend ++ x ∧ (q.installed = false → x = [])) ∧ Ext s s' := by
  have fsig : ∀ {s : St} {q : Q}, IdleQ s i q → q.phase = .sig →
      Next s i q fun s' q' => q'.phase = .next ∧ q'.batch = q.batch ∧ (∃ x, q'.pend = q.pend ++ x ∧ (q.installed = false → x = [])) ∧ Ext s s' := by
    intro s q hi hp
    obtain ⟨s', q', hg, hi', hk, h1, h2, h3, h4⟩ := n_sig hi hp
    exact ⟨s', q', hg, hi', hk, h1, h2, ⟨[], by simp [h3], fun _ => rfl⟩, h4⟩
  have ffin : ∀ {s : St} {q : Q} {fo : Fo}, IdleQ s i q → q.phase = .fin fo →
      Next s i q fun s' q' => q'.phase = .next ∧ q'.batch = q.batch ∧ (∃ x, q'.pend = q.pend ++ x ∧ (q.installed = false → x = [])) ∧ Ext s s' := by
    intro s q fo hi hp
    obtain ⟨s', q', hg, hi', hk, h1, h2, h3, h4⟩ := n_fin hi hp
    obtain ⟨s2, q2, hg2, hi2, hk2, k1, k2, ⟨x, k3, k3'⟩, k4⟩ := fsig hi' h1
    exact ⟨s2, q2, hg.trans (hk.t ▸ hg2), hi2, hk.trans hk2, k1, k2.trans h2, ⟨x, by rw [k3, h3], fun h => k3' (hk.ins.trans h)⟩, h4.trans k4⟩
  have fpost : ∀ {s : St} {q : Q} {fo : Fo} {m : Mode}, IdleQ s i q → q.phase = .post fo m →
      Next s i q fun s' q' => q'.phase = .next ∧ q'.batch = q.batch ∧ (∃ x, q'.pend = q.pend ++ x ∧ (q.installed = false → x = [])) ∧ Ext s s' := by
    intro s q fo m hi hp
    obtain ⟨s', q', hg, hi', hk, h1, h2, ⟨y, h3, _, h3'⟩, h4⟩ := n_done hi hp
    obtain ⟨s2, q2, hg2, hi2, hk2, k1, k2, ⟨x, k3, k3'⟩, k4⟩ := ffin hi' h1
    exact ⟨s2, q2, hg.trans (hk.t ▸ hg2), hi2, hk.trans hk2, k1, k2.trans h2, ⟨y ++ x, by rw [k3, h3]; simp, fun h => by rw [h3' h, k3' (hk.ins.trans h)]; rfl⟩, h4.trans k4⟩
  have main : q.phase = .poll ∨ Next s i q fun s' q' => q'.phase = .next ∧ q'.batch = q.batch ∧ (∃ x, q'.pend = q.pend ++ x ∧ (q.installed = false → x = [])) ∧ Ext s s' := by
    cases hp : q.phase with
    | poll => exact Or.inl rfl
    | next => exact Or.inr ⟨s, q, Go.refl _ _ _, hi, ⟨rfl, rfl, rfl, rfl, rfl⟩, hp, rfl, ⟨[], by simp, fun _ => rfl⟩, Ext.refl s⟩
    | run fo m =>
      right
      obtain ⟨s', q', hg, hi', hk, rfl, h4⟩ := n_ret hi hp
      obtain ⟨s2, q2, hg2, hi2, hk2, k1, k2, ⟨x, k3, k3'⟩, k4⟩ := fpost hi' rfl
      exact ⟨s2, q2, hg.trans (hk.t ▸ hg2), hi2, hk.trans hk2, k1, k2, ⟨x, k3, k3'⟩, Ext.trans ⟨_, h4⟩ k4⟩
    | post fo m => exact Or.inr (fpost hi hp)
    | runFree fo =>
      right
      obtain ⟨s', q', hg, hi', hk, rfl, h4⟩ := n_freeRet hi hp
      obtain ⟨s2, q2, hg2, hi2, hk2, k1, k2, ⟨x, k3, k3'⟩, k4⟩ := ffin hi' rfl
      exact ⟨s2, q2, hg.trans (hk.t ▸ hg2), hi2, hk.trans hk2, k1, k2, ⟨x, k3, k3'⟩, Ext.trans ⟨[], by simp [h4]⟩ k4⟩
    | fin fo => exact Or.inr (ffin hi hp)
    | sig => exact Or.inr (fsig hi hp)
  rcases main with h | ⟨s', q', hg, hi', hk, h1, h2, h3, h4⟩
  · exact ⟨s, q, Go.refl _ _ _, hi, ⟨rfl, rfl, rfl, rfl, rfl⟩, Or.inr ⟨h, h⟩, rfl, ⟨[], by simp, fun _ => rfl⟩, Ext.refl s⟩
  · exact ⟨s', q', hg, hi', hk, Or.inl h1, h2, h3, h4⟩

/-- One function of the list is invoked free-only and processed. -/
theorem cycle {s : St} {i : Nat} {q : Q} (hi : IdleQ s i q) {fo : Fo} {rest : List Fo} (hp : q.phase = .next) (hb : q.batch = fo :: rest) :
    Next s i q fun s' q' => q'.phase = .next ∧ q'.batch = rest ∧ q'.pend = q.pend ∧ ∃ m d, Ev.invoked i fo.n fo.compl m d ∈ s'.log := by
  obtain ⟨s1, q1, g1, i1, k1, rfl, l1⟩ := n_invoke hi .freeOnly hp hb
  obtain ⟨s2, q2, g2, i2, k2, rfl, l2⟩ := n_ret i1 rfl
  obtain ⟨s3, q3, g3, i3, k3, p3, b3, ⟨x, e3, x3, _⟩, ⟨l3, l3'⟩⟩ := n_done i2 rfl
  obtain ⟨s4, q4, g4, i4, k4, p4, b4, e4, ⟨l4, l4'⟩⟩ := n_fin i3 p3
  obtain ⟨s5, q5, g5, i5, k5, p5, b5, e5, ⟨l5, l5'⟩⟩ := n_sig i4 p4
  have x0 := x3 rfl
  refine ⟨s5, q5, ?_, i5, k1.trans (k2.trans (k3.trans (k4.trans k5))), p5, ?_, ?_, ⟨.freeOnly, fo.done, ?_⟩⟩
  · have h3 : q3.thr = q.thr := k3.t
    have h4 : q4.thr = q.thr := k4.t.trans h3
    rw [h4] at g5; rw [h3] at g4
    exact g1.trans (g2.trans (g3.trans (g4.trans g5)))
  · rw [b5, b4, b3]
  · rw [e5, e4, e3, x0]; simp
  · rw [l5', l4', l3', l2, l1]; simp

/-- Once the list is swapped out it can be processed to the end. -/
theorem drain_batch {i : Nat} : ∀ (l : List Fo) {s : St} {q : Q}, IdleQ s i q → q.phase = .next → q.batch = l →
    Next s i q fun _ q' => q'.phase = .next ∧ q'.batch = [] ∧ q'.pend = q.pend := by
  intro l
  induction l with
  | nil => intro s q hi hp hb; exact ⟨s, q, Go.refl _ _ _, hi, ⟨rfl, rfl, rfl, rfl, rfl⟩, hp, hb, rfl⟩
  | cons fo rest ih =>
    intro s q hi hp hb
    obtain ⟨s1, q1, g1, i1, k1, p1, b1, e1, _⟩ := cycle hi hp hb
    obtain ⟨s2, q2, g2, i2, k2, p2, b2, e2⟩ := ih i1 p1 b1
    exact ⟨s2, q2, g1.trans (k1.t ▸ g2), i2, k1.trans k2, p2, b2, e2.trans e1⟩

/-- Any function in the swapped-out list can be reached. -/
theorem reach_batch {i : Nat} : ∀ (l : List Fo) {s : St} {q : Q}, IdleQ s i q → q.phase = .next → q.batch = l → ∀ x ∈ l,
    Next s i q fun s' _ => ∃ m d, Ev.invoked i x.n x.compl m d ∈ s'.log := by
  intro l
  induction l with
  | nil => intro s q hi hp hb x hx; simp at hx
  | cons fo rest ih =>
    intro s q hi hp hb x hx
    obtain ⟨s1, q1, g1, i1, k1, p1, b1, e1, l1⟩ := cycle hi hp hb
    rcases List.mem_cons.1 hx with rfl | hx
    · exact ⟨s1, q1, g1, i1, k1, l1⟩
    · obtain ⟨s2, q2, g2, i2, k2, l2⟩ := ih i1 p1 b1 x hx
      exact ⟨s2, q2, g1.trans (k1.t ▸ g2), i2, k1.trans k2, l2⟩

theorem to_poll {s : St} {i : Nat} {q : Q} (hi : IdleQ s i q) :
    Next s i q fun _ q' => q'.phase = .poll ∧ (∃ x, q'.pend = q.pend ++ x ∧ (q.installed = false → x = [])) := by
  obtain ⟨s1, q1, g1, i1, k1, p1, b1, ⟨x, e1, e1'⟩, _⟩ := to_head hi
  rcases p1 with p1 | ⟨_, p1⟩
  · obtain ⟨s2, q2, g2, i2, k2, p2, b2, e2⟩ := drain_batch _ i1 p1 rfl
    obtain ⟨s3, q3, g3, i3, k3, rfl, l3⟩ := n_loopEnd i2 p2 b2
    refine ⟨s3, _, ?_, i3, k1.trans (k2.trans k3), rfl, ⟨x, e2.trans e1, e1'⟩⟩
    rw [k2.t, k1.t] at g3; rw [k1.t] at g2
    exact g1.trans (g2.trans g3)
  · exact ⟨s1, q1, g1, i1, k1, p1, ⟨x, e1, e1'⟩⟩

theorem reach_pend {s : St} {i : Nat} {q : Q} (hu : StOK q) (hi : IdleQ s i q) {x : Fo} (hx : x ∈ q.batch ++ q.pend) :
    Next s i q fun s' _ => ∃ m d, Ev.invoked i x.n x.compl m d ∈ s'.log := by
  by_cases hb : x ∈ q.batch
  · obtain ⟨s1, q1, g1, i1, k1, p1, b1, _, _⟩ := to_head hi
    rcases p1 with p1 | ⟨p0, p1⟩
    · obtain ⟨s2, q2, g2, i2, k2, l2⟩ := reach_batch _ i1 p1 b1 x hb
      exact ⟨s2, q2, g1.trans (k1.t ▸ g2), i2, k1.trans k2, l2⟩
    · have := hu.2.2.2 p0
      rw [this] at hb; simp at hb
  · have hx : x ∈ q.pend := by simp [hb] at hx; exact hx
    obtain ⟨s1, q1, g1, i1, k1, p1, ⟨y, e1, _⟩⟩ := to_poll hi
    have hst : q1.stage ≠ .fini ∧ q1.stage ≠ .dead := by
      rw [k1.st]
      refine ⟨fun h => ?_, fun h => ?_⟩
      · have := (hu.2.2.1 (Or.inl h)).1
        rw [this] at hx; simp at hx
      · have := (hu.2.2.1 (Or.inr h)).1
        rw [this] at hx; simp at hx
    have hxp : x ∈ q1.pend := by rw [e1]; simp [hx]
    obtain ⟨s2, q2, g2, i2, k2, rfl, l2⟩ := n_take i1 p1 hst (by intro h; rw [h] at hxp; simp at hxp)
    obtain ⟨s3, q3, g3, i3, k3, l3⟩ := reach_batch _ i2 rfl rfl x hxp
    refine ⟨s3, q3, ?_, i3, k1.trans (k2.trans k3), l3⟩
    have h2 : ({ q1 with batch := q1.pend, pend := [], phase := .next } : Q).thr = q.thr := k1.t
    rw [h2] at g3; rw [k1.t] at g2
    exact g1.trans (g2.trans g3)

/-- The lists can be emptied. -/
theorem to_empty {s : St} {i : Nat} {q : Q} (hi : IdleQ s i q) (hs : q.stage ≠ .fini ∧ q.stage ≠ .dead) :
    Next s i q fun _ q' => q'.phase = .poll ∧ q'.pend = [] := by
  obtain ⟨s1, q1, g1, i1, k1, p1, ⟨y, e1, _⟩⟩ := to_poll hi
  by_cases h : q1.pend = []
  · exact ⟨s1, q1, g1, i1, k1, p1, h⟩
  · have hst : q1.stage ≠ .fini ∧ q1.stage ≠ .dead := by rw [k1.st]; exact hs
    obtain ⟨s2, q2, g2, i2, k2, rfl, l2⟩ := n_take i1 p1 hst h
    obtain ⟨s3, q3, g3, i3, k3, p3, b3, e3⟩ := drain_batch _ i2 rfl rfl
    obtain ⟨s4, q4, g4, i4, k4, rfl, l4⟩ := n_loopEnd i3 p3 b3
    refine ⟨s4, _, ?_, i4, k1.trans (k2.trans (k3.trans k4)), rfl, e3⟩
    have h2 : ({ q1 with batch := q1.pend, pend := [], phase := .next } : Q).thr = q.thr := k1.t
    have h3 : q3.thr = q.thr := k3.t.trans h2
    rw [h3] at g4; rw [h2] at g3; rw [k1.t] at g2
    exact g1.trans (g2.trans (g3.trans g4))

end Verif.Mpq
