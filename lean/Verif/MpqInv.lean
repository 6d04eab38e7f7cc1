import Verif.Mpq

/-! Invariants of the queue model (helper lemmas for `Verif.MpqProps`). -/

namespace Verif.Mpq

/-! ### Steps, flattened -/

/-- The steps of the model with their guards, one constructor per path through the code. -/
inductive Tr (s : St) : St → Prop
  | skip : Tr s s
  | spawn : Tr s { s with thr := s.thr ++ [{ this := none, op := .idle, inl := [] }] }
  | create (m : Nat) (nb : Bool) (hm : 1 ≤ m) (hm2 : m ≤ mpqMaxSize) :
      Tr s { s with
        qs := s.qs ++ [{ thr := s.thr.length, max := m, nonblock := nb, installed := true, usage := 1,
                         term := false, stage := .live, phase := .poll, pend := [], batch := [], count := 0 }]
        thr := s.thr ++ [{ this := some s.qs.length, op := .idle, inl := [] }] }
  | startErr (t qi : Nat) (th : Thr) (sy : Bool) (dn : Option Nat) (rc : Rc) (ht : s.thr[t]? = some th) (hrc : rc ≠ .ok) :
      Tr s { s with next := s.next + 1, log := s.log ++ [.called t qi s.next sy dn] ++ [.result t qi s.next sy rc] }
  | startInl (t qi : Nat) (th : Thr) (ht : s.thr[t]? = some th) (ho : th.op = .idle) (hthis : th.this = some qi)
      (ha : s.alive th = true) :
      Tr s { s with next := s.next + 1, thr := s.thr.set t { th with inl := s.next :: th.inl },
                    log := s.log ++ [.called t qi s.next true none] ++ [.inlined qi s.next] }
  | startGot (t qi : Nat) (th : Thr) (q : Q) (fo : Fo) (op : Op) (ht : s.thr[t]? = some th) (ho : th.op = .idle)
      (hq : s.qs[qi]? = some q) (hi : q.installed = true)
      (hn : fo.n = s.next) (hc : fo.compl = false) (hnf : fo.noFail = false)
      (hs : fo.sync = none ∨ fo.sync = some t) (hsd : fo.sync ≠ none → fo.done = none)
      (hself : fo.sync ≠ none → th.this ≠ some qi)
      (hop : op = .got qi fo ∨ ∃ rc, rc ≠ .ok ∧ rc ≠ .eintr ∧ op = .put qi fo rc) :
      Tr s { s with next := s.next + 1, qs := s.qs.set qi { q with usage := q.usage + 1 },
                    thr := s.thr.set t { th with op := op }, log := s.log ++ [.called t qi fo.n fo.sync.isSome fo.done] }
  | addOk (t qi : Nat) (th : Thr) (q : Q) (fo : Fo) (ht : s.thr[t]? = some th)
      (ho : th.op = .got qi fo ∨ th.op = .woken qi fo) (hq : s.qs[qi]? = some q)
      (hg : fo.noFail = true ∨ q.count < q.max) :
      Tr s { s with qs := s.qs.set qi { q with pend := q.pend ++ [fo], count := q.count + 1 },
                    thr := s.thr.set t { th with op := if fo.sync.isSome then .syncWait qi fo false else .put qi fo .ok },
                    log := s.log ++ [.queued qi fo.n fo.compl] }
  | addErr (t qi : Nat) (th : Thr) (q : Q) (fo : Fo) (rc : Rc) (ht : s.thr[t]? = some th)
      (ho : th.op = .got qi fo ∨ th.op = .woken qi fo) (hq : s.qs[qi]? = some q)
      (hrc : rc ≠ .ok) (hw : rc = .eperm ∧ fo.done ≠ none ∨ fo.noFail = false ∧ q.max ≤ q.count)
      (hei : rc = .eintr → q.nonblock = false ∧ ∃ qj qq, th.this = some qj ∧ s.qs[qj]? = some qq ∧ qq.term = true) 
      (hwk : (th.op = .woken qi fo → rc ≠ .eperm) ∧ (rc = .eperm ∨ rc = .eintr ∨ q.nonblock = true)) :
      Tr s { s with thr := s.thr.set t { th with op := .put qi fo rc } }
  | addSleep (t qi : Nat) (th : Thr) (q : Q) (fo : Fo) (ht : s.thr[t]? = some th)
      (ho : th.op = .got qi fo ∨ th.op = .woken qi fo) (hq : s.qs[qi]? = some q)
      (hw : fo.noFail = false ∧ q.max ≤ q.count) (hnb : q.nonblock = false) (htt : s.termThis th = false) :
      Tr s { s with thr := s.thr.set t { th with op := .asleep qi fo } }
  | wake (t qi : Nat) (th : Thr) (fo : Fo) (ht : s.thr[t]? = some th) (ho : th.op = .asleep qi fo) :
      Tr s { s with thr := s.thr.set t { th with op := .woken qi fo } }
  | syncRet (t qi : Nat) (th : Thr) (fo : Fo) (ht : s.thr[t]? = some th) (ho : th.op = .syncWait qi fo true) :
      Tr s { s with thr := s.thr.set t { th with op := .put qi fo .ok } }
  | put (t qi : Nat) (th : Thr) (q : Q) (fo : Fo) (rc : Rc) (ht : s.thr[t]? = some th) (ho : th.op = .put qi fo rc)
      (hq : s.qs[qi]? = some q) :
      Tr s { s with qs := s.qs.set qi { q with usage := q.usage - 1 }, thr := s.thr.set t { th with op := .idle },
                    log := if fo.compl then s.log else s.log ++ [.result t qi fo.n fo.sync.isSome rc] }
  | inlRet (t qi n : Nat) (rest : List Nat) (th : Thr) (ht : s.thr[t]? = some th) (ho : th.op = .idle)
      (hl : th.inl = n :: rest) (hthis : th.this = some qi) :
      Tr s { s with thr := s.thr.set t { th with inl := rest },
                    log := s.log ++ [.inlineRet qi n] ++ [.result t qi n true .ok] }
  | dgot (t qi : Nat) (th : Thr) (q : Q) (ht : s.thr[t]? = some th) (ho : th.op = .idle)
      (hq : s.qs[qi]? = some q) (hi : q.installed = true) :
      Tr s { s with qs := s.qs.set qi { q with usage := q.usage + 1 }, thr := s.thr.set t { th with op := .dgot qi } }
  | dset (t qi : Nat) (th : Thr) (q : Q) (ht : s.thr[t]? = some th) (ho : th.op = .dgot qi) (hq : s.qs[qi]? = some q) :
      Tr s { s with qs := s.qs.set qi { q with term := true }, thr := s.thr.set t { th with op := .dterm qi } }
  | dput (t qi : Nat) (th : Thr) (q : Q) (ht : s.thr[t]? = some th) (ho : th.op = .dterm qi) (hq : s.qs[qi]? = some q) :
      Tr s { s with qs := s.qs.set qi { q with usage := q.usage - 1 },
                    thr := (s.thr.map (wakeOn th.this)).set t { th with op := .idle } }
  | own (qi : Nat) (q q' : Q) (th : Thr) (es : List Ev) (hq : s.qs[qi]? = some q) (ht : s.thr[q.thr]? = some th)
      (ho : th.op = .idle) (hl : th.inl = [])
      (hk : q'.thr = q.thr ∧ q'.max = q.max ∧ q'.nonblock = q.nonblock ∧ q'.usage = q.usage ∧ q'.term = q.term)
      (hc : 
        -- take
        (q.phase = .poll ∧ q.stage ≠ .fini ∧ q.stage ≠ .dead ∧ q.pend ≠ [] ∧ es = [] ∧
          q' = { q with batch := q.pend, pend := [], phase := .next }) ∨
        -- invoke
        (∃ fo rest m, q.phase = .next ∧ q.batch = fo :: rest ∧ es = [.invoked qi fo.n fo.compl m fo.done] ∧
          q' = { q with batch := rest, phase := .run fo m }) ∨
        -- loopEnd
        (q.phase = .next ∧ q.batch = [] ∧ es = [] ∧ q' = { q with phase := .poll }) ∨
        -- ret
        (∃ fo m, q.phase = .run fo m ∧ es = [.returned qi fo.n fo.compl m fo.done] ∧ q' = { q with phase := .post fo m }) ∨
        -- done, no completion
        (∃ fo m, q.phase = .post fo m ∧ (fo.done = none ∨ m = .freeOnly) ∧ es = [] ∧ q' = { q with phase := .fin fo }) ∨
        -- done, local free
        (∃ fo d, q.phase = .post fo .obj ∧ fo.done = some d ∧ s.find d = none ∧ es = [.localFree qi fo.n] ∧
          q' = { q with phase := .runFree fo }) ∨
        -- freeRet
        (∃ fo, q.phase = .runFree fo ∧ es = [] ∧ q' = { q with phase := .fin fo }) ∨
        -- exit
        (q.phase = .poll ∧ q.stage = .live ∧ q.term = true ∧ es = [] ∧ q' = { q with stage := .exiting }) ∨
        -- uninst
        (q.phase = .poll ∧ q.stage = .exiting ∧ es = [] ∧ q' = { q with stage := .uninst, installed := false }) ∨
        -- seenOne
        (q.phase = .poll ∧ q.stage = .uninst ∧ q.usage ≤ 1 ∧ es = [] ∧ q' = { q with stage := .drain }) ∨
        -- drained
        (q.phase = .poll ∧ q.stage = .drain ∧ q.pend = [] ∧ es = [] ∧ q' = { q with stage := .fini }) ∨
        -- free
        (q.phase = .poll ∧ q.stage = .fini ∧ es = [] ∧ q' = { q with stage := .dead })) :
      Tr s { s with qs := s.qs.set qi q', log := s.log ++ es }
  | doneQ (qi d : Nat) (q dq : Q) (th : Thr) (fo c : Fo) (hq : s.qs[qi]? = some q) (ht : s.thr[q.thr]? = some th)
      (ho : th.op = .idle) (hl : th.inl = []) (hp : q.phase = .post fo .obj) (hd : fo.done = some d)
      (hdq : s.qs[d]? = some dq) (hdi : dq.installed = true)
      (hc : c = { n := fo.n, compl := true, sync := none, done := none, noFail := true }) :
      Tr s { s with qs := (s.qs.set qi { q with phase := .fin fo }).set d
                      (if d = qi then { q with phase := .fin fo, usage := q.usage + 1 } else { dq with usage := dq.usage + 1 }),
                    thr := s.thr.set q.thr { th with op := .got d c } }
  | fin (qi : Nat) (q : Q) (th : Thr) (fo : Fo) (thr' : List Thr) (bad' : Bool) (hq : s.qs[qi]? = some q)
      (ht : s.thr[q.thr]? = some th)
      (ho : th.op = .idle) (hl : th.inl = []) (hp : q.phase = .fin fo)
      (hc : (fo.sync = none ∧ thr' = s.thr ∧ bad' = s.bad) ∨
        (∃ t tt, fo.sync = some t ∧ s.thr[t]? = some tt ∧ tt.op = .syncWait qi fo false ∧
          thr' = s.thr.set t { tt with op := .syncWait qi fo true } ∧ bad' = s.bad) ∨
        (∃ t, fo.sync = some t ∧ (∀ tt, s.thr[t]? = some tt → tt.op ≠ .syncWait qi fo false) ∧ thr' = s.thr ∧ bad' = true)) :
      Tr s { s with qs := s.qs.set qi { q with phase := .sig, count := q.count - 1 }, thr := thr', bad := bad',
                    log := s.log ++ [.finished qi fo.n fo.compl] }
  | sig (qi : Nat) (q : Q) (th : Thr) (thr' : List Thr) (hq : s.qs[qi]? = some q) (ht : s.thr[q.thr]? = some th)
      (ho : th.op = .idle) (hl : th.inl = []) (hp : q.phase = .sig)
      (hc : (s.thr.any (asleepOn qi) = false ∧ thr' = s.thr) ∨
        ∃ w tw fo, s.thr[w]? = some tw ∧ tw.op = .asleep qi fo ∧ thr' = s.thr.set w { tw with op := .woken qi fo }) :
      Tr s { s with qs := s.qs.set qi { q with phase := .next }, thr := thr' }

theorem find_some {s : St} {i : Nat} {q : Q} (h : s.find i = some q) : s.qs[i]? = some q ∧ q.installed = true := by
  unfold St.find at h
  split at h
  · split at h <;> simp_all
  · simp at h

theorem ownStep_some {s s' : St} {qi : Nat} {f : Q → Option St} (h : ownStep s qi f = some s') :
    ∃ q th, s.qs[qi]? = some q ∧ s.thr[q.thr]? = some th ∧ th.op = .idle ∧ th.inl = [] ∧ f q = some s' := by
  unfold ownStep at h
  cases hq : s.qs[qi]? with
  | none => simp [hq] at h
  | some q =>
    simp only [hq, Option.bind_eq_bind, Option.bind_some] at h
    split at h
    · rename_i hf
      unfold St.free at hf
      split at hf
      · rename_i th ht
        simp at hf
        exact ⟨q, th, rfl, ht, hf.1, hf.2, h⟩
      · simp at hf
    · simp at h

theorem tr_lockedAdd {s : St} {t : Nat} {th : Thr} {qi : Nat} {q : Q} {fo : Fo} (ht : s.thr[t]? = some th)
    (ho : th.op = .got qi fo ∨ th.op = .woken qi fo) (hq : s.qs[qi]? = some q) :
    Tr s (lockedAdd s t th qi q fo) := by
  unfold lockedAdd
  split
  · rename_i hg
    exact Tr.addOk t qi th q fo ht ho hq hg
  · rename_i hg
    have hg' : fo.noFail = false ∧ q.max ≤ q.count := by
      cases h : fo.noFail <;> simp_all
    split
    · rename_i hnb
      exact Tr.addErr t qi th q fo .eagain ht ho hq (by simp) (Or.inr hg') (by simp) (by simp [hnb])
    · split
      · rename_i hnb hterm
        refine Tr.addErr t qi th q fo .eintr ht ho hq (by simp) (Or.inr hg') ?_ (by simp)
        intro _
        refine ⟨by simpa using hnb, ?_⟩
        unfold St.termThis at hterm
        split at hterm
        · simp at hterm
        · split at hterm
          · rename_i hj _ qq hqq
            exact ⟨_, qq, hj, hqq, hterm⟩
          · simp at hterm
      · rename_i hnb hterm
        exact Tr.addSleep t qi th q fo ht ho hq hg' (by simpa using hnb) (by simpa using hterm)

theorem tr_spawn {s s' : St} (h : step s (.spawn ) = some s') : Tr s s' := by simp [step, doSpawn] at h; subst h; exact Tr.spawn

theorem tr_create {s s' : St} {m : Nat} {nb : Bool} (h : step s (.create m nb) = some s') : Tr s s' := by
  have h' : doCreate s m nb = s' := by simpa only [step, Option.some.injEq] using h
  rw [← h']
  unfold doCreate
  by_cases hc : m < 1 ∨ mpqMaxSize < m
  · rw [if_pos hc]; exact Tr.skip
  · rw [if_neg hc]; exact Tr.create m nb (Nat.le_of_not_lt fun hh => hc (Or.inl hh)) (Nat.le_of_not_lt fun hh => hc (Or.inr hh))

theorem tr_start {s s' : St} {t : Nat} {qi : Nat} {k : Kind} {a : Args} (h : step s (.start t qi k a) = some s') : Tr s s' := by
    replace h : doStart s t qi k a = some s' := h
    unfold doStart at h
    cases ht : s.thr[t]? with
    | none => simp [ht] at h
    | some th =>
      simp only [ht, Option.bind_eq_bind, Option.bind_some] at h
      split at h
      · simp at h
      · rename_i hid
        have hid' : th.op = .idle := Classical.byContradiction fun hh => hid (Or.inl hh)
        have hal : s.alive th = true := by
          cases hh : s.alive th
          · exact absurd (Or.inr hh) hid
          · rfl
        split at h
        · rename_i hown
          split at h
          · rename_i rc hrc
            simp only [St.emit, Option.some.injEq] at h; subst h
            refine Tr.startErr t qi th _ _ rc ht ?_
            intro hh; subst hh
            cases a <;> simp [argsErr] at hrc <;> split at hrc <;> simp at hrc
          · simp only [St.emit, St.setT, Option.some.injEq] at h; subst h
            have hkd : k.sync (decide (th.this = some qi)) = true ∧ k.done = none := by
              have h2 : th.this = some qi := by simpa using hown.2
              cases k <;> simp [Kind.sync, Kind.done, Kind.treatThis, h2] at hown ⊢
            rw [hkd.1, hkd.2]
            exact Tr.startInl t qi th ht hid' (by simpa using hown.2) hal
        · rename_i hown
          split at h
          · simp only [St.emit, Option.some.injEq] at h; subst h
            exact Tr.startErr t qi th _ _ .einval ht (by simp)
          · rename_i q hf
            have hf' := find_some hf
            simp only [St.emit] at hf'
            have hsy' : (k.sync (decide (th.this = some qi)) = true → k.done = none) ∧
                (k.sync (decide (th.this = some qi)) = true → th.this ≠ some qi) := by
              cases k <;> simp [Kind.sync, Kind.done, Kind.treatThis] at hown ⊢ <;> simp_all
            generalize hsg : k.sync (decide (th.this = some qi)) = sy at *
            generalize hdg : k.done = dn at *
            have hkey : ∀ op, (op = Op.got qi ⟨s.next, false, if sy = true then some t else none, dn, false⟩ ∨
                ∃ rc, rc ≠ .ok ∧ rc ≠ .eintr ∧ op = Op.put qi ⟨s.next, false, if sy = true then some t else none, dn, false⟩ rc) →
                Tr s { s with next := s.next + 1, qs := s.qs.set qi { q with usage := q.usage + 1 },
                              thr := s.thr.set t { th with op := op }, log := s.log ++ [.called t qi s.next sy dn] } := by
              intro op hop
              have hh := Tr.startGot t qi th q ⟨s.next, false, if sy = true then some t else none, dn, false⟩ op ht hid' hf'.1 hf'.2 rfl rfl rfl ?_ ?_ ?_ hop
              · cases sy <;> simpa using hh
              · cases sy <;> simp
              · cases sy <;> simp_all
              · cases sy <;> simp_all
            split at h
            · rename_i rc hrc
              simp only [St.setT, St.setQ, St.emit, Option.some.injEq] at h; subst h
              refine hkey _ (Or.inr ⟨rc, ?_, ?_, rfl⟩)
              · intro hh; subst hh
                cases a <;> simp [argsErr] at hrc <;> split at hrc <;> simp at hrc
              · intro hh; subst hh
                cases a <;> simp [argsErr] at hrc <;> split at hrc <;> simp at hrc
            · simp only [St.setT, St.setQ, St.emit, Option.some.injEq] at h; subst h
              exact hkey _ (Or.inl rfl)

theorem tr_add {s s' : St} {t : Nat} (h : step s (.add t) = some s') : Tr s s' := by
    simp only [step, doAdd] at h
    cases ht : s.thr[t]? with
    | none => simp [ht] at h
    | some th =>
      simp only [ht, Option.bind_eq_bind, Option.bind_some] at h
      split at h
      · rename_i qi fo ho
        cases hq : s.qs[qi]? with
        | none => simp [hq] at h
        | some q =>
          simp only [hq, Option.bind_some] at h
          split at h
          · rename_i hpe
            simp only [St.setT, Option.some.injEq] at h; subst h
            refine Tr.addErr t qi th q fo .eperm ht (Or.inl ho) hq (by simp) (Or.inl ⟨rfl, ?_⟩) (by simp) (by simp [ho])
            intro hh; simp [hh] at hpe
          · simp only [Option.some.injEq] at h; subst h
            exact tr_lockedAdd ht (Or.inl ho) hq
      · rename_i qi fo ho
        cases hq : s.qs[qi]? with
        | none => simp [hq] at h
        | some q =>
          simp only [hq, Option.bind_some, Option.some.injEq] at h; subst h
          exact tr_lockedAdd ht (Or.inr ho) hq
      · simp at h

theorem tr_wake {s s' : St} {t : Nat} (h : step s (.wake t) = some s') : Tr s s' := by
    simp only [step, doWake] at h
    cases ht : s.thr[t]? with
    | none => simp [ht] at h
    | some th =>
      simp only [ht, Option.bind_eq_bind, Option.bind_some] at h
      split at h
      · rename_i qi fo ho
        simp only [St.setT, Option.some.injEq] at h; subst h
        exact Tr.wake t qi th fo ht ho
      · simp at h

theorem tr_syncRet {s s' : St} {t : Nat} (h : step s (.syncRet t) = some s') : Tr s s' := by
    simp only [step, doSyncRet] at h
    cases ht : s.thr[t]? with
    | none => simp [ht] at h
    | some th =>
      simp only [ht, Option.bind_eq_bind, Option.bind_some] at h
      split at h
      · rename_i qi fo ho
        simp only [St.setT, Option.some.injEq] at h; subst h
        exact Tr.syncRet t qi th fo ht ho
      · simp at h

theorem tr_put {s s' : St} {t : Nat} (h : step s (.put t) = some s') : Tr s s' := by
    simp only [step, doPut] at h
    cases ht : s.thr[t]? with
    | none => simp [ht] at h
    | some th =>
      simp only [ht, Option.bind_eq_bind, Option.bind_some] at h
      split at h
      · rename_i qi fo rc ho
        cases hq : s.qs[qi]? with
        | none => simp [hq] at h
        | some q =>
          simp only [hq, Option.bind_some] at h
          have := Tr.put t qi th q fo rc ht ho hq
          split at h
          · rename_i hc
            simp only [St.setT, St.setQ, Option.some.injEq] at h; subst h
            simpa [hc] using this
          · rename_i hc
            simp only [St.setT, St.setQ, St.emit, Option.some.injEq] at h; subst h
            simpa [hc] using this
      · simp at h

theorem tr_inlRet {s s' : St} {t : Nat} (h : step s (.inlRet t) = some s') : Tr s s' := by
    simp only [step, doInlRet] at h
    cases ht : s.thr[t]? with
    | none => simp [ht] at h
    | some th =>
      simp only [ht, Option.bind_eq_bind, Option.bind_some] at h
      split at h
      · rename_i n rest qi ho hl hthis
        simp only [St.setT, St.emit, Option.some.injEq] at h; subst h
        exact Tr.inlRet t qi n rest th ht ho hl hthis
      · simp at h

theorem tr_destroy {s s' : St} {t : Nat} {qi : Nat} (h : step s (.destroy t qi) = some s') : Tr s s' := by
    simp only [step, doDestroy] at h
    cases ht : s.thr[t]? with
    | none => simp [ht] at h
    | some th =>
      simp only [ht, Option.bind_eq_bind, Option.bind_some] at h
      split at h
      · simp at h
      · rename_i hid
        have hid' : th.op = .idle := Classical.byContradiction fun hh => hid (Or.inl hh)
        split at h
        · simp only [Option.some.injEq] at h; subst h; exact Tr.skip
        · rename_i q hf
          have hf' := find_some hf
          simp only [St.setT, St.setQ, Option.some.injEq] at h; subst h
          exact Tr.dgot t qi th q ht hid' hf'.1 hf'.2

theorem tr_dset {s s' : St} {t : Nat} (h : step s (.dset t) = some s') : Tr s s' := by
    simp only [step, doDset] at h
    cases ht : s.thr[t]? with
    | none => simp [ht] at h
    | some th =>
      simp only [ht, Option.bind_eq_bind, Option.bind_some] at h
      split at h
      · rename_i qi ho
        cases hq : s.qs[qi]? with
        | none => simp [hq] at h
        | some q =>
          simp only [hq, Option.bind_some, St.setT, St.setQ, Option.some.injEq] at h; subst h
          exact Tr.dset t qi th q ht ho hq
      · simp at h

theorem tr_dput {s s' : St} {t : Nat} (h : step s (.dput t) = some s') : Tr s s' := by
    simp only [step, doDput] at h
    cases ht : s.thr[t]? with
    | none => simp [ht] at h
    | some th =>
      simp only [ht, Option.bind_eq_bind, Option.bind_some] at h
      split at h
      · rename_i qi ho
        cases hq : s.qs[qi]? with
        | none => simp [hq] at h
        | some q =>
          simp only [hq, Option.bind_some, St.setT, St.setQ, Option.some.injEq] at h; subst h
          exact Tr.dput t qi th q ht ho hq
      · simp at h

theorem tr_take {s s' : St} {qi : Nat} (h : step s (.take qi) = some s') : Tr s s' := by
    obtain ⟨q, th, hq, ht, ho, hl, h⟩ := ownStep_some h
    have hk : ∀ q' : Q, _ → Tr s { s with qs := s.qs.set qi q', log := s.log ++ [] } :=
      fun q' hc => Tr.own qi q q' th [] hq ht ho hl (by grind) (Or.inl hc)
    simp only [List.append_nil] at hk
    split at h
    · simp at h
    · simp at h
    · split at h
      · simp at h
      · simp only [St.setQ, Option.some.injEq] at h; subst h
        apply hk; grind
    · simp at h

theorem tr_invoke {s s' : St} {qi : Nat} {m : Mode} (h : step s (.invoke qi m) = some s') : Tr s s' := by
    obtain ⟨q, th, hq, ht, ho, hl, h⟩ := ownStep_some h
    split at h
    · rename_i fo rest hp hb
      simp only [St.setQ, St.emit, Option.some.injEq] at h; subst h
      exact Tr.own qi q _ th _ hq ht ho hl (by simp) (Or.inr (Or.inl ⟨fo, rest, m, hp, hb, rfl, rfl⟩))
    · simp at h

theorem tr_loopEnd {s s' : St} {qi : Nat} (h : step s (.loopEnd qi) = some s') : Tr s s' := by
    obtain ⟨q, th, hq, ht, ho, hl, h⟩ := ownStep_some h
    split at h
    · rename_i hp hb
      have := Tr.own qi q { q with phase := .poll } th [] hq ht ho hl (by simp) (by grind)
      simp only [St.setQ, St.emit, Option.some.injEq] at h; subst h
      simpa using this
    · simp at h

theorem tr_ret {s s' : St} {qi : Nat} (h : step s (.ret qi) = some s') : Tr s s' := by
    obtain ⟨q, th, hq, ht, ho, hl, h⟩ := ownStep_some h
    split at h
    · rename_i fo m hp
      simp only [St.setQ, St.emit, Option.some.injEq] at h; subst h
      exact Tr.own qi q _ th _ hq ht ho hl (by simp) (by grind)
    · simp at h

theorem tr_done {s s' : St} {qi : Nat} (h : step s (.done qi) = some s') : Tr s s' := by
    obtain ⟨q, th, hq, ht, ho, hl, h⟩ := ownStep_some h
    split at h
    · rename_i fo m hp
      split at h
      · rename_i hd
        have := Tr.own qi q { q with phase := .fin fo } th [] hq ht ho hl (by simp) (by grind)
        simp only [St.setQ, Option.some.injEq] at h; subst h
        simpa using this
      · rename_i d hd
        split at h
        · have := Tr.own qi q { q with phase := .fin fo } th [] hq ht ho hl (by simp) (by grind)
          simp only [St.setQ, Option.some.injEq] at h; subst h
          simpa using this
        · rename_i hm
          have hm' : m = .obj := by cases m <;> simp_all
          subst hm'
          split at h
          · rename_i hf
            have := Tr.own qi q { q with phase := .runFree fo } th [.localFree qi fo.n] hq ht ho hl (by simp) (by grind)
            simp only [St.setQ, St.emit, Option.some.injEq] at h; subst h
            simpa using this
          · rename_i dq hf
            have hf' := find_some hf
            simp only [St.setQ] at h
            split at h
            · rename_i dq' th' hdq hth
              rw [ht] at hth; cases hth
              have := Tr.doneQ qi d q dq th fo _ hq ht ho hl hp hd hf'.1 hf'.2 rfl
              simp only [St.setQ, St.setT, Option.some.injEq] at h; subst h
              have e : (if d = qi then ({ q with phase := .fin fo, usage := q.usage + 1 } : Q) else { dq with usage := dq.usage + 1 })
                  = { dq' with usage := dq'.usage + 1 } := by
                by_cases hdq' : d = qi
                · subst hdq'
                  have hlt : d < s.qs.length := by
                    rw [List.getElem?_eq_some_iff] at hq; exact hq.1
                  rw [List.getElem?_set_self hlt] at hdq
                  cases hdq; simp
                · rw [List.getElem?_set_ne (fun e => hdq' e.symm), hf'.1] at hdq
                  cases hdq; simp [hdq']
              rw [e] at this
              exact this
            · simp at h
    · simp at h

theorem tr_freeRet {s s' : St} {qi : Nat} (h : step s (.freeRet qi) = some s') : Tr s s' := by
    obtain ⟨q, th, hq, ht, ho, hl, h⟩ := ownStep_some h
    split at h
    · rename_i fo hp
      have := Tr.own qi q { q with phase := .fin fo } th [] hq ht ho hl (by simp) (by grind)
      simp only [St.setQ, Option.some.injEq] at h; subst h
      simpa using this
    · simp at h

theorem tr_fin {s s' : St} {qi : Nat} (h : step s (.fin qi) = some s') : Tr s s' := by
    obtain ⟨q, th, hq, ht, ho, hl, h⟩ := ownStep_some h
    split at h
    · rename_i fo hp
      simp only [St.setQ, St.emit, St.setT] at h
      split at h
      · rename_i hs
        simp only [Option.some.injEq] at h; subst h
        exact Tr.fin qi q th fo s.thr s.bad hq ht ho hl hp (Or.inl ⟨hs, rfl, rfl⟩)
      · rename_i t hs
        split at h
        · rename_i tt htt
          split at h
          · rename_i hop
            simp only [Option.some.injEq] at h; subst h
            exact Tr.fin qi q th fo _ s.bad hq ht ho hl hp (Or.inr (Or.inl ⟨t, tt, hs, htt, hop, rfl, rfl⟩))
          · rename_i hop
            simp only [Option.some.injEq] at h; subst h
            refine Tr.fin qi q th fo _ true hq ht ho hl hp (Or.inr (Or.inr ⟨t, hs, ?_, rfl, rfl⟩))
            intro tt' h'; rw [htt] at h'; cases h'; exact hop
        · rename_i htt
          simp only [Option.some.injEq] at h; subst h
          refine Tr.fin qi q th fo _ true hq ht ho hl hp (Or.inr (Or.inr ⟨t, hs, ?_, rfl, rfl⟩))
          intro tt' h'; rw [htt] at h'; cases h'
    · simp at h

theorem tr_sig {s s' : St} {qi : Nat} {w : Nat} (h : step s (.sig qi w) = some s') : Tr s s' := by
    obtain ⟨q, th, hq, ht, ho, hl, h⟩ := ownStep_some h
    split at h
    · rename_i hp
      simp only [St.setQ, St.setT] at h
      split at h
      · split at h
        · rename_i tw htw
          split at h
          · rename_i qj fo hop
            split at h
            · rename_i hqj; subst hqj
              simp only [Option.some.injEq] at h; subst h
              exact Tr.sig qj q th _ hq ht ho hl hp (Or.inr ⟨w, tw, fo, htw, hop, rfl⟩)
            · simp at h
          · simp at h
        · simp at h
      · rename_i hany
        simp only [Option.some.injEq] at h; subst h
        exact Tr.sig qi q th _ hq ht ho hl hp (Or.inl ⟨by simpa using hany, rfl⟩)
    · simp at h

theorem tr_exit {s s' : St} {qi : Nat} (h : step s (.exit qi) = some s') : Tr s s' := by
    obtain ⟨q, th, hq, ht, ho, hl, h⟩ := ownStep_some h
    split at h
    · have := Tr.own qi q { q with stage := .exiting } th [] hq ht ho hl (by simp) (by grind)
      simp only [St.setQ, Option.some.injEq] at h; subst h
      simpa using this
    · simp at h

theorem tr_uninst {s s' : St} {qi : Nat} (h : step s (.uninst qi) = some s') : Tr s s' := by
    obtain ⟨q, th, hq, ht, ho, hl, h⟩ := ownStep_some h
    split at h
    · have := Tr.own qi q { q with stage := .uninst, installed := false } th [] hq ht ho hl (by simp) (by grind)
      simp only [St.setQ, Option.some.injEq] at h; subst h
      simpa using this
    · simp at h

theorem tr_seenOne {s s' : St} {qi : Nat} (h : step s (.seenOne qi) = some s') : Tr s s' := by
    obtain ⟨q, th, hq, ht, ho, hl, h⟩ := ownStep_some h
    split at h
    · have := Tr.own qi q { q with stage := .drain } th [] hq ht ho hl (by simp) (by grind)
      simp only [St.setQ, Option.some.injEq] at h; subst h
      simpa using this
    · simp at h

theorem tr_drained {s s' : St} {qi : Nat} (h : step s (.drained qi) = some s') : Tr s s' := by
    obtain ⟨q, th, hq, ht, ho, hl, h⟩ := ownStep_some h
    split at h
    · have := Tr.own qi q { q with stage := .fini } th [] hq ht ho hl (by simp) (by grind)
      simp only [St.setQ, Option.some.injEq] at h; subst h
      simpa using this
    · simp at h

theorem tr_free {s s' : St} {qi : Nat} (h : step s (.free qi) = some s') : Tr s s' := by
    obtain ⟨q, th, hq, ht, ho, hl, h⟩ := ownStep_some h
    split at h
    · have := Tr.own qi q { q with stage := .dead } th [] hq ht ho hl (by simp) (by grind)
      simp only [St.setQ, Option.some.injEq] at h; subst h
      simpa using this
    · simp at h

theorem step_tr {s s' : St} {a : Act} (h : step s a = some s') : Tr s s' := by
  cases a with
  | spawn  => exact tr_spawn h
  | create m nb => exact tr_create h
  | start t qi k a => exact tr_start h
  | add t => exact tr_add h
  | wake t => exact tr_wake h
  | syncRet t => exact tr_syncRet h
  | put t => exact tr_put h
  | inlRet t => exact tr_inlRet h
  | destroy t qi => exact tr_destroy h
  | dset t => exact tr_dset h
  | dput t => exact tr_dput h
  | take qi => exact tr_take h
  | invoke qi m => exact tr_invoke h
  | loopEnd qi => exact tr_loopEnd h
  | ret qi => exact tr_ret h
  | done qi => exact tr_done h
  | freeRet qi => exact tr_freeRet h
  | fin qi => exact tr_fin h
  | sig qi w => exact tr_sig h
  | exit qi => exact tr_exit h
  | uninst qi => exact tr_uninst h
  | seenOne qi => exact tr_seenOne h
  | drained qi => exact tr_drained h
  | free qi => exact tr_free h

/-- Induction over reachable states through the flattened steps. -/
theorem reach_induction {P : St → Prop} (h0 : P init) (hs : ∀ s s', P s → Tr s s' → P s') :
    ∀ s, Reachable s → P s := by
  have key : ∀ acts s s', P s → run s acts = some s' → P s' := by
    intro acts
    induction acts with
    | nil => intro s s' hp h; simp [run] at h; subst h; exact hp
    | cons a as ih =>
      intro s s' hp h
      simp only [run] at h
      split at h
      · rename_i s1 h1
        exact ih s1 s' (hs s s1 hp (step_tr h1)) h
      · simp at h
  intro s ⟨acts, h⟩
  exact key acts init s h0 h

end Verif.Mpq
