import Verif.MpqDeadProps

/-!
# Destroyed queues end

kernel/mpq.c:769-853 (the loop and `__q_wait_destroy`), 1639-1691 (aosl_mpq_destroy).  The property theorems of C196 on the model of `Verif.Mpq`.
-/

namespace Verif.Mpq

/-- A destroy call for queue `i` has found it: it has been told to end, or a thread is about to tell it. Belongs to the model of kernel/mpq.c:769-853. -/
def Doomed (s : St) (i : Nat) : Prop := ∃ q, s.qs[i]? = some q ∧ (q.term = true ∨ ∃ (t : Nat) (th : Thr), s.thr[t]? = some th ∧ th.op = .dgot i)

theorem doomed_tr {s s' : St} (htr : Tr s s') {i : Nat} (h : Doomed s i) : Doomed s' i := by
  obtain ⟨q0, hq0, h⟩ := h
  -- the queue is there and its mark stays
  have setq : ∀ (j : Nat) (x y : Q), s.qs[j]? = some x → (x.term = true → y.term = true) → ∃ q', (s.qs.set j y)[i]? = some q' ∧ (q0.term = true → q'.term = true) := by
    intro j x y hx hy
    by_cases e : j = i
    · subst e; rw [hq0] at hx; cases hx
      exact ⟨y, List.getElem?_set_self (lt_of_get hq0), hy⟩
    · exact ⟨q0, by rw [List.getElem?_set_ne e]; exact hq0, id⟩
  have sett : ∀ (u : Nat) (x y : Thr), s.thr[u]? = some x → (x.op ≠ .dgot i ∨ y.op = x.op) → ∀ (t : Nat) (th : Thr), s.thr[t]? = some th → th.op = .dgot i → ∃ (t : Nat) (th : Thr), (s.thr.set u y)[t]? = some th ∧ th.op = .dgot i := by
    intro u x y hx hy t th ht ho
    by_cases e : u = t
    · subst e; rw [ht] at hx; cases hx
      rcases hy with hy | hy
      · exact absurd ho hy
      · exact ⟨u, y, List.getElem?_set_self (lt_of_get ht), hy.trans ho⟩
    · exact ⟨t, th, by rw [List.getElem?_set_ne e]; exact ht, ho⟩
  have mk : ∀ (s' : St), (∃ q', s'.qs[i]? = some q' ∧ (q0.term = true → q'.term = true)) →
      (∀ (t : Nat) (th : Thr), s.thr[t]? = some th → th.op = .dgot i → ∃ (t : Nat) (th : Thr), s'.thr[t]? = some th ∧ th.op = .dgot i) → Doomed s' i := by
    intro s' ⟨q', h1, h2⟩ h3
    refine ⟨q', h1, ?_⟩
    rcases h with h | ⟨t, th, ht, ho⟩
    · exact .inl (h2 h)
    · exact .inr (h3 t th ht ho)
  have qsame : ∃ q', s.qs[i]? = some q' ∧ (q0.term = true → q'.term = true) := ⟨q0, hq0, id⟩
  have tsame : ∀ (t : Nat) (th : Thr), s.thr[t]? = some th → th.op = .dgot i → ∃ (t : Nat) (th : Thr), s.thr[t]? = some th ∧ th.op = .dgot i := fun t th h1 h2 => ⟨t, th, h1, h2⟩
  cases htr with
  | skip => exact mk _ qsame tsame
  | spawn => exact mk _ qsame (fun t th h1 h2 => ⟨t, th, by simp only; rw [List.getElem?_append_left (lt_of_get h1)]; exact h1, h2⟩)
  | create m nb hm =>
    exact mk _ ⟨q0, by simp only; rw [List.getElem?_append_left (lt_of_get hq0)]; exact hq0, id⟩
      (fun t th h1 h2 => ⟨t, th, by simp only; rw [List.getElem?_append_left (lt_of_get h1)]; exact h1, h2⟩)
  | startErr => exact mk _ qsame tsame
  | startInl u qi x hx hidle => exact mk _ qsame (sett u x _ hx (.inr rfl))
  | startGot u qi x q f op hx hidle hq => exact mk _ (setq qi q _ (by assumption) id) (sett u x _ hx (.inl (by simp [hidle])))
  | addOk u qi x q f hx hop hq => exact mk _ (setq qi q _ hq id) (sett u x _ hx (.inl (by rcases hop with e | e <;> simp [e])))
  | addErr u qi x q f rc hx hop => exact mk _ qsame (sett u x _ hx (.inl (by rcases hop with e | e <;> simp [e])))
  | addSleep u qi x q f hx hop => exact mk _ qsame (sett u x _ hx (.inl (by rcases hop with e | e <;> simp [e])))
  | wake u qi x f hx hop => exact mk _ qsame (sett u x _ hx (.inl (by simp [hop])))
  | syncRet u qi x f hx hop => exact mk _ qsame (sett u x _ hx (.inl (by simp [hop])))
  | put u qi x q f rc hx hop hq => exact mk _ (setq qi q _ hq id) (sett u x _ hx (.inl (by simp [hop])))
  | inlRet u qi n rest x hx => exact mk _ qsame (sett u x _ hx (.inr rfl))
  | dgot u qi x q hx hop hq => exact mk _ (setq qi q _ hq id) (sett u x _ hx (.inl (by simp [hop])))
  | dset u qi x q hx hop hq =>
    by_cases e : qi = i
    · subst e
      exact ⟨{ q with term := true }, List.getElem?_set_self (lt_of_get hq), .inl rfl⟩
    · exact mk _ (setq qi q _ hq (fun _ => rfl)) (sett u x _ hx (.inl (by rw [hop]; intro h; cases h; exact e rfl)))
  | dput u qi x q hx hop hq =>
    refine mk _ (setq qi q _ hq id) ?_
    intro t th ht ho
    by_cases e : u = t
    · subst e; rw [ht] at hx; cases hx; rw [ho] at hop; cases hop
    · refine ⟨t, wakeOn x.this th, by simp only; rw [List.getElem?_set_ne e, List.getElem?_map, ht]; rfl, ?_⟩
      unfold wakeOn; rw [ho]; exact ho
  | own qi q q' x es hq hx hidle hl hk => exact mk _ (setq qi q q' hq (fun h => by rw [hk.2.2.2.2]; exact h)) tsame
  | doneQ qi d q dq x f c hq hx hidle hl hp hd hdq =>
    refine mk _ ?_ (sett q.thr x _ hx (.inl (by simp [hidle])))
    by_cases e : d = i
    · subst e
      rw [hq0] at hdq; cases hdq
      refine ⟨_, List.getElem?_set_self (by simpa using lt_of_get hq0), ?_⟩
      split
      · rename_i e2; subst e2; rw [hq0] at hq; cases hq; exact id
      · exact id
    · obtain ⟨q', h1, h2⟩ := setq qi q { q with phase := .fin f } hq id
      exact ⟨q', by simp only; rw [List.getElem?_set_ne e]; exact h1, h2⟩
  | fin qi q x f thr' bad' hq hx hidle hl hp hc =>
    refine mk _ (setq qi q _ hq id) ?_
    rcases hc with ⟨_, rfl, _⟩ | ⟨u, tt, _, htt, hop, rfl, _⟩ | ⟨u, _, _, rfl, _⟩
    · exact tsame
    · exact sett u tt _ htt (.inl (by simp [hop]))
    · exact tsame
  | sig qi q x thr' hq hx hidle hl hp hc =>
    refine mk _ (setq qi q _ hq id) ?_
    rcases hc with ⟨_, rfl⟩ | ⟨w, tw, f, htw, hop, rfl⟩
    · exact tsame
    · exact sett w tw _ htw (.inl (by simp [hop]))

theorem doomed_run {s s' : St} (acts : List Act) (hr : run s acts = some s') {i : Nat} (h : Doomed s i) : Doomed s' i := by
  induction acts generalizing s with
  | nil => simp [run] at hr; subst hr; exact h
  | cons a as ih =>
    simp only [run] at hr
    split at hr
    · rename_i s1 h1
      exact ih hr (doomed_tr (step_tr h1) h)
    · simp at hr

/-- In a state in which no call under way can make a step, a queue that has been told to end has ended, unless its thread waits for another queue. -/
theorem settled_ends {s : St} (h : Reachable s) (hs : Settled s) {i : Nat} {q : Q} (hq : s.qs[i]? = some q) (ht : q.term = true) (hw : ¬ ∃ j, QWaits s i j) :
    q.stage = .dead ∧ q.outstanding = [] := by
  obtain ⟨th, hth, _⟩ := queue_thread h hq
  rcases settled_thread h hs hth with ⟨ho, hl⟩ | ⟨j, hj⟩
  · obtain ⟨h1, h2, h3⟩ := settled_free h hs hq hth ho hl
    refine ⟨?_, h1⟩
    have hpe : q.pend = [] := by
      simp only [Q.outstanding, List.append_eq_nil_iff] at h1; exact h1.2
    have huse : q.usage ≤ 1 := by
      rw [(U_reach s h).use i q hq]
      have : tot (holds i) s.thr = 0 := by
        rw [tot_zero]
        intro x hx
        obtain ⟨u, hu, rfl⟩ := List.getElem_of_mem hx
        rcases settled_thread h hs (t := u) (th := s.thr[u]) (by simp [hu]) with ⟨e, _⟩ | ⟨j, hj⟩
        · simp [holds, e, opOn]
        · by_cases e : j = i
          · subst e; exact absurd (settled_target h hs (t := u) (by simp [hu]) hj) hw
          · obtain ⟨fo, hj⟩ := hj
            have e' : ¬ j = i := e
            rcases hj with hj | hj <;> simp [holds, hj, opOn, e']
      omega
    have own : ∀ f, ownStep s i f = f q := by
      intro f
      simp [ownStep, hq, St.free, hth, ho, hl]
    cases hst : q.stage with
    | dead => rfl
    | live => have := hs (.exit i) rfl; simp [step, doExit, own, h3, hst, ht] at this
    | exiting => have := hs (.uninst i) rfl; simp [step, doUninst, own, h3, hst] at this
    | uninst => have := hs (.seenOne i) rfl; simp [step, doSeenOne, own, h3, hst, huse] at this
    | drain => have := hs (.drained i) rfl; simp [step, doDrained, own, h3, hst, hpe] at this
    | fini => have := hs (.free i) rfl; simp [step, doFree, own, h3, hst] at this
  · exact absurd ⟨j, q, th, hq, hth, hj⟩ hw

/-- C196: a thread destroys a queue that is there.  Whatever happens then, in whatever order: once the calls under way have made all the steps they can, the queue has ended with nothing left in it,
unless its own thread waits for a queue. -/
theorem C196_ends (s s' : St) (h : Reachable s) (t i : Nat) (th : Thr) (q : Q) (ht : s.thr[t]? = some th) (ho : th.op = .idle) (hal : s.alive th = true) (hq : s.qs[i]? = some q) (hin : q.installed = true)
    (acts : List Act) (hr : run s (.destroy t i :: acts) = some s') (hs : Settled s') :
    ∃ q', s'.qs[i]? = some q' ∧ ((q'.stage = .dead ∧ q'.outstanding = []) ∨ ∃ j, QWaits s' i j) := by
  have hr' := run_reach h hr
  have hd : Doomed s' i := by
    simp only [run] at hr
    split at hr
    · rename_i s1 h1
      refine doomed_run acts hr ?_
      simp only [step, doDestroy, ht, ho, hal, St.find, hq, hin, Option.bind_eq_bind, Option.bind_some] at h1
      simp at h1
      subst h1
      exact ⟨{ q with usage := q.usage + 1 }, by simp [St.setQ, St.setT, List.getElem?_set_self (lt_of_get hq)], .inr ⟨t, { th with op := .dgot i }, by simp [St.setQ, St.setT, List.getElem?_set_self (lt_of_get ht)], rfl⟩⟩
    · simp at hr
  obtain ⟨q', hq', hd⟩ := hd
  refine ⟨q', hq', ?_⟩
  by_cases hw : ∃ j, QWaits s' i j
  · exact .inr hw
  · left
    rcases hd with hd | ⟨u, tu, hu, hou⟩
    · exact settled_ends hr' hs hq' hd hw
    · exfalso
      rcases settled_thread hr' hs hu with ⟨e, _⟩ | ⟨j, fo, e⟩
      · rw [hou] at e; cases e
      · rw [hou] at e; simp at e

/-- C196: so without a circle of queues waiting for each other every queue that was destroyed has ended. -/
theorem C196_all_end (s : St) (h : Reachable s) (hs : Settled s) (hc : ¬ ∃ W, Circle s W) (i : Nat) (q : Q) (hq : s.qs[i]? = some q) (ht : q.term = true) : q.stage = .dead ∧ q.outstanding = [] := by
  refine settled_ends h hs hq ht ?_
  rintro ⟨j, q', th, hq', hth, hj⟩
  apply hc
  obtain ⟨k, hk⟩ := settled_target h hs hth hj
  refine ⟨fun i => ∃ k, QWaits s i k, ⟨j, k, hk⟩, ?_⟩
  rintro i ⟨k, q, tq, hq, htq, hk⟩
  exact ⟨k, settled_target h hs htq hk, q, tq, hq, htq, hk⟩

/-- A queue whose thread is inside a call goes no further in its life. -/
theorem stage_stays {s s' : St} (htr : Tr s s') {i : Nat} {q0 : Q} {th0 : Thr} (hq0 : s.qs[i]? = some q0) (ht0 : s.thr[q0.thr]? = some th0) (hb : th0.op ≠ .idle) :
    ∃ q', s'.qs[i]? = some q' ∧ q'.stage = q0.stage := by
  have same : ∃ q', s.qs[i]? = some q' ∧ q'.stage = q0.stage := ⟨q0, hq0, rfl⟩
  have setq : ∀ (j : Nat) (x y : Q), s.qs[j]? = some x → y.stage = x.stage → ∃ q', (s.qs.set j y)[i]? = some q' ∧ q'.stage = q0.stage := by
    intro j x y hx hy
    by_cases e : j = i
    · subst e; rw [hq0] at hx; cases hx
      exact ⟨y, List.getElem?_set_self (lt_of_get hq0), hy⟩
    · exact ⟨q0, by rw [List.getElem?_set_ne e]; exact hq0, rfl⟩
  cases htr with
  | skip => exact same
  | spawn => exact same
  | create m nb hm => exact ⟨q0, by simp only; rw [List.getElem?_append_left (lt_of_get hq0)]; exact hq0, rfl⟩
  | startErr => exact same
  | startInl => exact same
  | startGot u qi x q f op hx hidle hq => exact setq qi q _ (by assumption) rfl
  | addOk u qi x q f hx hop hq => exact setq qi q _ hq rfl
  | addErr => exact same
  | addSleep => exact same
  | wake => exact same
  | syncRet => exact same
  | put u qi x q f rc hx hop hq => exact setq qi q _ hq rfl
  | inlRet => exact same
  | dgot u qi x q hx hop hq => exact setq qi q _ hq rfl
  | dset u qi x q hx hop hq => exact setq qi q _ hq rfl
  | dput u qi x q hx hop hq => exact setq qi q _ hq rfl
  | own qi q q' x es hq hx hidle hl hk =>
    by_cases e : qi = i
    · subst e; rw [hq0] at hq; cases hq; rw [ht0] at hx; cases hx; exact absurd hidle hb
    · exact ⟨q0, by simp only; rw [List.getElem?_set_ne e]; exact hq0, rfl⟩
  | doneQ qi d q dq x f c hq hx hidle hl hp hd hdq =>
    by_cases e : d = i
    · subst e
      refine ⟨_, List.getElem?_set_self (by simpa using lt_of_get hq0), ?_⟩
      rw [hq0] at hdq; cases hdq
      split
      · rename_i e2; subst e2; rw [hq0] at hq; cases hq; rfl
      · rfl
    · obtain ⟨q', h1, h2⟩ := setq qi q { q with phase := .fin f } hq rfl
      exact ⟨q', by simp only; rw [List.getElem?_set_ne e]; exact h1, h2⟩
  | fin qi q x f thr' bad' hq => exact setq qi q _ hq rfl
  | sig qi q x thr' hq => exact setq qi q _ hq rfl

/-- C196: and queues that wait for each other in a circle of synchronous calls never end, whoever destroys them. -/
theorem C196_circle_never (s s' : St) (W : Nat → Prop) (hW : ∀ i, W i → SyncIn s W i) (acts : List Act) (hr : run s acts = some s') (i : Nat) (hi : W i) (q : Q) (hq : s.qs[i]? = some q) :
    ∃ q', s'.qs[i]? = some q' ∧ q'.stage = q.stage := by
  induction acts generalizing s q with
  | nil => simp [run] at hr; subst hr; exact ⟨q, hq, rfl⟩
  | cons a as ih =>
    simp only [run] at hr
    split at hr
    · rename_i s1 h1
      have htr := step_tr h1
      obtain ⟨q1, t1, j, fo, hq1, ht1, ho1, hj⟩ := hW i hi
      rw [hq] at hq1; cases hq1
      obtain ⟨q2, h2, h3⟩ := stage_stays htr hq ht1 (by simp [ho1])
      obtain ⟨q', h4, h5⟩ := ih s1 (fun k hk => syncIn_tr hW htr k hk) hr q2 h2
      exact ⟨q', h4, h5.trans h3⟩
    · simp at hr

/-- A queue with two functions in it, one of which queues to another queue, is destroyed: it ends (the hypotheses of `C196_ends`). -/
def endTrace : List Act :=
  [.dset 0, .dput 0, .take 0, .invoke 0 .obj, .start 1 1 (.queue none) (.argv 0), .add 1, .put 1, .ret 0, .done 0, .fin 0, .sig 0 0, .invoke 0 .freeOnly, .ret 0, .done 0, .fin 0, .sig 0 0, .loopEnd 0,
   .exit 0, .uninst 0, .seenOne 0, .drained 0, .free 0, .take 1, .invoke 1 .obj, .ret 1, .done 1, .fin 1, .sig 1 0, .loopEnd 1,
   .destroy 0 1, .dset 0, .dput 0, .exit 1, .uninst 1, .seenOne 1, .drained 1, .free 1]

example : ∃ s s', run init [.spawn, .create 5 false, .create 5 false, .start 0 0 (.queue none) (.argv 0), .add 0, .put 0, .start 0 0 (.queue none) (.argv 3), .add 0, .put 0] = some s ∧
    run s (.destroy 0 0 :: endTrace) = some s' ∧ work s' = 0 ∧ ∃ q, s'.qs[0]? = some q ∧ q.stage = .dead ∧ q.outstanding = [] := by
  refine ⟨_, _, rfl, rfl, by decide +kernel, _, rfl, rfl, rfl⟩

end Verif.Mpq
