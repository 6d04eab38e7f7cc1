import Verif.MpqEsc

/-!
# Calls between queues

kernel/mpq.c:371-491 (`____add_f`: a synchronous caller and a producer of a full queue wait, without
running the functions of their own queue meanwhile), 624-703.  The model is that of `Verif.Mpq`; this
file says which of its steps are the library's own and how much of that work is left.
-/

namespace Verif.Mpq

/-- The steps that belong to calls under way: everything but new threads, new queues, new calls
and condition variables waking up without a reason. Belongs to the model of kernel/mpq.c:371-491. -/
def internal : Act → Bool
  | .spawn => false
  | .create _ _ => false
  | .start _ _ _ _ => false
  | .destroy _ _ => false
  | .wake _ => false
  | _ => true

/-- A thread at this point waits for queue `j`: for room in it, or for a function queued to it. Belongs to the model of kernel/mpq.c:371-491. -/
def waitsFor (j : Nat) (op : Op) : Prop := ∃ fo, op = .asleep j fo ∨ op = .syncWait j fo false

/-- The thread of queue `i` waits for queue `j`. Belongs to the model of kernel/mpq.c:371-491. -/
def QWaits (s : St) (i j : Nat) : Prop :=
  ∃ q th, s.qs[i]? = some q ∧ s.thr[q.thr]? = some th ∧ waitsFor j th.op

/-! ### The work left -/

/-- Belongs to the model of kernel/mpq.c:371-491. -/
def eW (fo : Fo) : Nat := if fo.done.isSome then 17 else 0
/-- Belongs to the model of kernel/mpq.c:371-491. -/
def pW (fo : Fo) : Nat := 9 + eW fo
/-- Belongs to the model of kernel/mpq.c:371-491. -/
def bW (fo : Fo) : Nat := 7 + eW fo

/-- Belongs to the model of kernel/mpq.c:371-491. -/
def opW (N : Nat) : Op → Nat
  | .idle => 0
  | .put _ _ _ => 1
  | .syncWait _ _ _ => 2
  | .asleep _ fo => pW fo + 4
  | .woken _ fo => pW fo + 5
  | .got _ fo => pW fo + 6
  | .dgot _ => 2 * N
  | .dterm _ => N

/-- Belongs to the model of kernel/mpq.c:371-491. -/
def tW (N : Nat) (th : Thr) : Nat := opW N th.op + th.inl.length

/-- Belongs to the model of kernel/mpq.c:371-491. -/
def phW : Phase → Nat
  | .poll => 0
  | .next => 1
  | .sig => 3
  | .fin _ => 4
  | .runFree _ => 5
  | .post fo _ => 6 + eW fo
  | .run fo _ => 7 + eW fo

/-- Belongs to the model of kernel/mpq.c:371-491. -/
def stW : Stage → Nat
  | .live => 5
  | .exiting => 4
  | .uninst => 3
  | .drain => 2
  | .fini => 1
  | .dead => 0

/-- Belongs to the model of kernel/mpq.c:371-491. -/
def qW (q : Q) : Nat := phW q.phase + tot bW q.batch + tot pW q.pend + stW q.stage

/-- A bound on the number of steps the library can still make by itself. Belongs to the model of kernel/mpq.c:371-491. -/
def work (s : St) : Nat := tot (tW (s.thr.length + 1)) s.thr + tot qW s.qs

theorem work_q {s s' : St} {qi : Nat} {q q' : Q} (hq : s.qs[qi]? = some q) (hqs : s'.qs = s.qs.set qi q') (hth : s'.thr = s.thr)
    (h : qW q' < qW q) : work s' < work s := by
  have := tot_set qW hq q'
  unfold work
  rw [hqs, hth]
  omega

theorem work_t {s s' : St} {t : Nat} {th th' : Thr} (ht : s.thr[t]? = some th) (hqs : s'.qs = s.qs) (hth : s'.thr = s.thr.set t th')
    (h : tW (s.thr.length + 1) th' < tW (s.thr.length + 1) th) : work s' < work s := by
  have := tot_set (tW (s.thr.length + 1)) ht th'
  unfold work
  rw [hqs, hth, List.length_set]
  omega

theorem work_tq {s s' : St} {t qi : Nat} {th th' : Thr} {q q' : Q} (ht : s.thr[t]? = some th) (hq : s.qs[qi]? = some q)
    (hqs : s'.qs = s.qs.set qi q') (hth : s'.thr = s.thr.set t th')
    (h : tW (s.thr.length + 1) th' + qW q' < tW (s.thr.length + 1) th + qW q) : work s' < work s := by
  have h1 := tot_set (tW (s.thr.length + 1)) ht th'
  have h2 := tot_set qW hq q'
  unfold work
  rw [hqs, hth, List.length_set]
  omega

theorem eW_none {fo : Fo} (h : fo.done = none) : eW fo = 0 := by simp [eW, h]
theorem eW_some {fo : Fo} {d : Nat} (h : fo.done = some d) : eW fo = 17 := by simp [eW, h]

theorem work_lockedAdd {s : St} {t qi : Nat} {th : Thr} {q : Q} {fo : Fo} (ht : s.thr[t]? = some th)
    (ho : th.op = .got qi fo ∨ th.op = .woken qi fo) (hq : s.qs[qi]? = some q) : work (lockedAdd s t th qi q fo) < work s := by
  unfold lockedAdd
  split
  · refine work_tq ht hq (q' := { q with pend := q.pend ++ [fo], count := q.count + 1 })
      (th' := { th with op := if fo.sync.isSome then .syncWait qi fo false else .put qi fo .ok }) rfl rfl ?_
    simp only [tW, qW, tot_append]
    split <;> rcases ho with ho | ho <;> simp only [ho, opW] <;> omega
  · split
    · refine work_t ht (th' := { th with op := .put qi fo .eagain }) rfl rfl ?_
      rcases ho with ho | ho <;> simp only [tW, ho, opW] <;> omega
    · split
      · refine work_t ht (th' := { th with op := .put qi fo .eintr }) rfl rfl ?_
        rcases ho with ho | ho <;> simp only [tW, ho, opW] <;> omega
      · refine work_t ht (th' := { th with op := .asleep qi fo }) rfl rfl ?_
        rcases ho with ho | ho <;> simp only [tW, ho, opW] <;> omega

theorem work_wake (N : Nat) (a : Option Nat) (l : List Thr) : tot (tW N) (l.map (wakeOn a)) ≤ tot (tW N) l + l.length := by
  induction l with
  | nil => simp [tot]
  | cons x xs ih =>
    have h1 : tW N (wakeOn a x) ≤ tW N x + 1 := by
      unfold wakeOn
      split
      · rename_i qi fo ho
        split
        · simp only [tW, ho, opW]; omega
        · omega
      · omega
    simp only [List.map_cons, tot_cons, List.length_cons]
    omega

theorem internal_work {s s' : St} {a : Act} (hi : internal a = true) (h : step s a = some s') : work s' < work s := by
  cases a with
  | spawn => simp [internal] at hi
  | create => simp [internal] at hi
  | start => simp [internal] at hi
  | destroy => simp [internal] at hi
  | wake => simp [internal] at hi
  | add t =>
    simp only [step, doAdd] at h
    cases ht : s.thr[t]? with
    | none => simp [ht] at h
    | some th =>
      simp only [ht, Option.bind_eq_bind, Option.bind_some] at h
      split at h
      · rename_i qi fo ho
        cases hq : s.qs[qi]? with
        | none => simp [hq] at h
        | some q =>
          simp only [hq, Option.bind_some] at h
          split at h
          · simp only [St.setT, Option.some.injEq] at h; subst h
            refine work_t ht (th' := { th with op := .put qi fo .eperm }) rfl rfl ?_
            simp only [tW, ho, opW]; omega
          · simp only [Option.some.injEq] at h; subst h
            exact work_lockedAdd ht (Or.inl ho) hq
      · rename_i qi fo ho
        cases hq : s.qs[qi]? with
        | none => simp [hq] at h
        | some q =>
          simp only [hq, Option.bind_some, Option.some.injEq] at h; subst h
          exact work_lockedAdd ht (Or.inr ho) hq
      · simp at h
  | syncRet t =>
    simp only [step, doSyncRet] at h
    cases ht : s.thr[t]? with
    | none => simp [ht] at h
    | some th =>
      simp only [ht, Option.bind_eq_bind, Option.bind_some] at h
      split at h
      · rename_i qi fo ho
        simp only [St.setT, Option.some.injEq] at h; subst h
        refine work_t ht (th' := { th with op := .put qi fo .ok }) rfl rfl ?_
        simp only [tW, ho, opW]; omega
      · simp at h
  | put t =>
    simp only [step, doPut] at h
    cases ht : s.thr[t]? with
    | none => simp [ht] at h
    | some th =>
      simp only [ht, Option.bind_eq_bind, Option.bind_some] at h
      split at h
      · rename_i qi fo rc ho
        cases hq : s.qs[qi]? with
        | none => simp [hq] at h
        | some q =>
          simp only [hq, Option.bind_some] at h
          have key : ∀ l, work { s with qs := s.qs.set qi { q with usage := q.usage - 1 }, thr := s.thr.set t { th with op := .idle }, log := l } < work s := by
            intro l
            refine work_tq ht hq (q' := { q with usage := q.usage - 1 }) (th' := { th with op := .idle }) rfl rfl ?_
            simp only [tW, ho, opW, qW]; omega
          split at h <;> (simp only [St.setT, St.setQ, St.emit, Option.some.injEq] at h; subst h; exact key _)
      · simp at h
  | inlRet t =>
    simp only [step, doInlRet] at h
    cases ht : s.thr[t]? with
    | none => simp [ht] at h
    | some th =>
      simp only [ht, Option.bind_eq_bind, Option.bind_some] at h
      split at h
      · rename_i n rest qi ho hl hthis
        simp only [St.setT, St.emit, Option.some.injEq] at h; subst h
        refine work_t ht (th' := { th with inl := rest }) rfl rfl ?_
        simp only [tW, hl, List.length_cons]; omega
      · simp at h
  | dset t =>
    simp only [step, doDset] at h
    cases ht : s.thr[t]? with
    | none => simp [ht] at h
    | some th =>
      simp only [ht, Option.bind_eq_bind, Option.bind_some] at h
      split at h
      · rename_i qi ho
        cases hq : s.qs[qi]? with
        | none => simp [hq] at h
        | some q =>
          simp only [hq, Option.bind_some, St.setT, St.setQ, Option.some.injEq] at h; subst h
          refine work_tq ht hq (q' := { q with term := true }) (th' := { th with op := .dterm qi }) rfl rfl ?_
          simp only [tW, ho, opW, qW]; omega
      · simp at h
  | dput t =>
    simp only [step, doDput] at h
    cases ht : s.thr[t]? with
    | none => simp [ht] at h
    | some th =>
      simp only [ht, Option.bind_eq_bind, Option.bind_some] at h
      split at h
      · rename_i qi ho
        cases hq : s.qs[qi]? with
        | none => simp [hq] at h
        | some q =>
          simp only [hq, Option.bind_some, St.setT, St.setQ, Option.some.injEq] at h; subst h
          have h1 := tot_set qW hq { q with usage := q.usage - 1 }
          have h2 := work_wake (s.thr.length + 1) th.this s.thr
          have hw : wakeOn th.this th = th := by unfold wakeOn; rw [ho]
          have h3 : (s.thr.map (wakeOn th.this))[t]? = some th := by rw [List.getElem?_map, ht]; simp [hw]
          have h4 := tot_set (tW (s.thr.length + 1)) h3 { th with op := .idle }
          simp only [work, List.length_set, List.length_map]
          simp only [tW, ho, opW, qW] at h1 h4
          omega
      · simp at h
  | take qi =>
    obtain ⟨q, th, hq, ht, ho, hl, h⟩ := ownStep_some h
    split at h
    · simp at h
    · simp at h
    · rename_i hp _ _
      split at h
      · simp at h
      · rename_i hne
        simp only [St.setQ, Option.some.injEq] at h; subst h
        refine work_q hq (q' := { q with batch := q.pend, pend := [], phase := .next }) rfl rfl ?_
        have : tot bW q.pend + 2 ≤ tot pW q.pend := by
          obtain ⟨x, xs, hx⟩ := List.exists_cons_of_ne_nil hne
          have := tot_mono (v := bW) (w := pW) (fun a => by simp only [bW, pW]; omega) xs
          rw [hx, tot_cons, tot_cons]
          simp only [bW, pW] at this ⊢
          omega
        simp only [qW, hp, phW, tot_nil]
        omega
    · simp at h
  | invoke qi m =>
    obtain ⟨q, th, hq, ht, ho, hl, h⟩ := ownStep_some h
    split at h
    · rename_i fo rest hp hb
      simp only [St.setQ, St.emit, Option.some.injEq] at h; subst h
      refine work_q hq (q' := { q with batch := rest, phase := .run fo m }) rfl rfl ?_
      simp only [qW, hp, hb, phW, tot_cons, bW]; omega
    · simp at h
  | loopEnd qi =>
    obtain ⟨q, th, hq, ht, ho, hl, h⟩ := ownStep_some h
    split at h
    · rename_i hp hb
      simp only [St.setQ, Option.some.injEq] at h; subst h
      refine work_q hq (q' := { q with phase := .poll }) rfl rfl ?_
      simp only [qW, hp, phW]; omega
    · simp at h
  | ret qi =>
    obtain ⟨q, th, hq, ht, ho, hl, h⟩ := ownStep_some h
    split at h
    · rename_i fo m hp
      simp only [St.setQ, St.emit, Option.some.injEq] at h; subst h
      refine work_q hq (q' := { q with phase := .post fo m }) rfl rfl ?_
      simp only [qW, hp, phW]; omega
    · simp at h
  | done qi =>
    obtain ⟨q, th, hq, ht, ho, hl, h⟩ := ownStep_some h
    split at h
    · rename_i fo m hp
      split at h
      · simp only [St.setQ, Option.some.injEq] at h; subst h
        refine work_q hq (q' := { q with phase := .fin fo }) rfl rfl ?_
        simp only [qW, hp, phW]; omega
      · rename_i d hd
        split at h
        · simp only [St.setQ, Option.some.injEq] at h; subst h
          refine work_q hq (q' := { q with phase := .fin fo }) rfl rfl ?_
          simp only [qW, hp, phW]; omega
        · split at h
          · simp only [St.setQ, St.emit, Option.some.injEq] at h; subst h
            refine work_q hq (q' := { q with phase := .runFree fo }) rfl rfl ?_
            simp only [qW, hp, phW]; omega
          · rename_i dq hf
            simp only [St.setQ] at h
            split at h
            · rename_i dq' th' hdq hth
              rw [ht] at hth; cases hth
              simp only [St.setT, Option.some.injEq] at h; subst h
              have h1 := tot_set qW hq { q with phase := .fin fo }
              have h2 := tot_set qW hdq { dq' with usage := dq'.usage + 1 }
              have h3 := tot_set (tW (s.thr.length + 1)) ht { th with op := .got d { n := fo.n, compl := true, sync := none, done := none, noFail := true } }
              simp only [work, List.length_set]
              have e2 : qW { dq' with usage := dq'.usage + 1 } = qW dq' := rfl
              have e1 : qW { q with phase := .fin fo } + 19 = qW q := by simp only [qW, hp, phW, eW_some hd]; omega
              have e3 : tW (s.thr.length + 1) { th with op := .got d { n := fo.n, compl := true, sync := none, done := none, noFail := true } } =
                  tW (s.thr.length + 1) th + 15 := by simp only [tW, ho, opW, pW, eW]; simp; omega
              omega
            · simp at h
    · simp at h
  | freeRet qi =>
    obtain ⟨q, th, hq, ht, ho, hl, h⟩ := ownStep_some h
    split at h
    · rename_i fo hp
      simp only [St.setQ, Option.some.injEq] at h; subst h
      refine work_q hq (q' := { q with phase := .fin fo }) rfl rfl ?_
      simp only [qW, hp, phW]; omega
    · simp at h
  | fin qi =>
    obtain ⟨q, th, hq, ht, ho, hl, h⟩ := ownStep_some h
    split at h
    · rename_i fo hp
      have key : ∀ l b, work { s with qs := s.qs.set qi { q with phase := .sig, count := q.count - 1 }, log := l, bad := b } < work s := by
        intro l b
        refine work_q hq (q' := { q with phase := .sig, count := q.count - 1 }) rfl rfl ?_
        simp only [qW, hp, phW]; omega
      split at h
      · simp only [St.setQ, St.emit, Option.some.injEq] at h; subst h
        exact key _ _
      · rename_i t hs
        simp only [St.setQ, St.emit] at h
        split at h
        · rename_i tt htt
          split at h
          · rename_i hop
            simp only [St.setT, Option.some.injEq] at h; subst h
            refine work_tq htt hq (q' := { q with phase := .sig, count := q.count - 1 }) (th' := { tt with op := .syncWait qi fo true }) rfl rfl ?_
            simp only [tW, hop, opW, qW, hp, phW]; omega
          · simp only [Option.some.injEq] at h; subst h
            exact key _ _
        · simp only [Option.some.injEq] at h; subst h
          exact key _ _
    · simp at h
  | sig qi w =>
    obtain ⟨q, th, hq, ht, ho, hl, h⟩ := ownStep_some h
    split at h
    · rename_i hp
      split at h
      · split at h
        · rename_i tw htw
          split at h
          · rename_i qj fo how
            split at h
            · simp only [St.setQ, St.setT, Option.some.injEq] at h; subst h
              refine work_tq htw hq (q' := { q with phase := .next }) (th' := { tw with op := .woken qj fo }) rfl rfl ?_
              simp only [tW, how, opW, qW, hp, phW]; omega
            · simp at h
          · simp at h
        · simp at h
      · simp only [St.setQ, Option.some.injEq] at h; subst h
        refine work_q hq (q' := { q with phase := .next }) rfl rfl ?_
        simp only [qW, hp, phW]; omega
    · simp at h
  | exit qi =>
    obtain ⟨q, th, hq, ht, ho, hl, h⟩ := ownStep_some h
    split at h
    · rename_i hc
      simp only [St.setQ, Option.some.injEq] at h; subst h
      refine work_q hq (q' := { q with stage := .exiting }) rfl rfl ?_
      simp only [qW, hc.2.1, stW]; omega
    · simp at h
  | uninst qi =>
    obtain ⟨q, th, hq, ht, ho, hl, h⟩ := ownStep_some h
    split at h
    · rename_i hc
      simp only [St.setQ, Option.some.injEq] at h; subst h
      refine work_q hq (q' := { q with stage := .uninst, installed := false }) rfl rfl ?_
      simp only [qW, hc.2, stW]; omega
    · simp at h
  | seenOne qi =>
    obtain ⟨q, th, hq, ht, ho, hl, h⟩ := ownStep_some h
    split at h
    · rename_i hc
      simp only [St.setQ, Option.some.injEq] at h; subst h
      refine work_q hq (q' := { q with stage := .drain }) rfl rfl ?_
      simp only [qW, hc.2.1, stW]; omega
    · simp at h
  | drained qi =>
    obtain ⟨q, th, hq, ht, ho, hl, h⟩ := ownStep_some h
    split at h
    · rename_i hc
      simp only [St.setQ, Option.some.injEq] at h; subst h
      refine work_q hq (q' := { q with stage := .fini }) rfl rfl ?_
      simp only [qW, hc.2.1, stW]; omega
    · simp at h
  | free qi =>
    obtain ⟨q, th, hq, ht, ho, hl, h⟩ := ownStep_some h
    split at h
    · rename_i hc
      simp only [St.setQ, Option.some.injEq] at h; subst h
      refine work_q hq (q' := { q with stage := .dead }) rfl rfl ?_
      simp only [qW, hc.2, stW]; omega
    · simp at h

/-! ### Waiting callers and their functions -/

/-- Where a waiting synchronous caller comes from. -/
theorem sw_origin {s s' : St} (htr : Tr s s') {t i : Nat} {th' : Thr} {fo : Fo} (hth : s'.thr[t]? = some th') (ho : th'.op = .syncWait i fo false) :
    (∃ th, s.thr[t]? = some th ∧ th.op = .syncWait i fo false) ∨
    (fo.sync.isSome = true ∧ ∃ th q', s.thr[t]? = some th ∧ opFo th.op = some fo ∧ s'.qs[i]? = some q' ∧ fo ∈ q'.pend) := by
  have same : ∀ {l : List Thr}, l = s.thr → l[t]? = some th' → (∃ th, s.thr[t]? = some th ∧ th.op = .syncWait i fo false) := by
    rintro l rfl h; exact ⟨th', h, ho⟩
  have upd : ∀ (u : Nat) (y : Thr), (s.thr.set u y)[t]? = some th' → (y.op = .syncWait i fo false → ∃ th, s.thr[t]? = some th ∧ th.op = .syncWait i fo false) →
      ∃ th, s.thr[t]? = some th ∧ th.op = .syncWait i fo false := by
    intro u y h h2
    rcases get_set h with ⟨rfl, rfl⟩ | ⟨_, h⟩
    · exact h2 ho
    · exact ⟨th', h, ho⟩
  cases htr with
  | skip => exact .inl (same rfl hth)
  | spawn =>
    rcases get_append hth with ⟨_, rfl⟩ | ⟨_, h⟩
    · simp at ho
    · exact .inl ⟨_, h, ho⟩
  | create m nb hm =>
    rcases get_append hth with ⟨_, rfl⟩ | ⟨_, h⟩
    · simp at ho
    · exact .inl ⟨_, h, ho⟩
  | startErr => exact .inl (same rfl hth)
  | startInl u qi x hx hidle => exact .inl (upd u _ hth fun e => by simp [hidle] at e)
  | startGot u qi x q f op hx _ _ _ _ _ _ _ _ _ hop =>
    refine .inl (upd u _ hth fun e => ?_)
    rcases hop with h | ⟨rc, _, _, h⟩ <;> simp [h] at e
  | addOk u qi x q f hx hop hq hg =>
    rcases get_set hth with ⟨rfl, rfl⟩ | ⟨_, h⟩
    · right
      simp only at ho
      split at ho
      · rename_i hs
        simp only [Op.syncWait.injEq, and_true] at ho
        obtain ⟨rfl, rfl⟩ := ho
        exact ⟨hs, x, _, hx, by rcases hop with h | h <;> simp [h, opFo], List.getElem?_set_self (lt_of_get hq), by simp⟩
      · simp at ho
    · exact .inl ⟨_, h, ho⟩
  | addErr u qi x q f rc hx => exact .inl (upd u _ hth fun e => by simp at e)
  | addSleep u qi x q f hx => exact .inl (upd u _ hth fun e => by simp at e)
  | wake u qi x f hx => exact .inl (upd u _ hth fun e => by simp at e)
  | syncRet u qi x f hx => exact .inl (upd u _ hth fun e => by simp at e)
  | put u qi x q f rc hx => exact .inl (upd u _ hth fun e => by simp at e)
  | inlRet u qi n rest x hx hidle => exact .inl (upd u _ hth fun e => by simp [hidle] at e)
  | dgot u qi x q hx => exact .inl (upd u _ hth fun e => by simp at e)
  | dset u qi x q hx => exact .inl (upd u _ hth fun e => by simp at e)
  | dput u qi x q hx hop =>
    left
    rcases get_set hth with ⟨rfl, rfl⟩ | ⟨_, h⟩
    · simp at ho
    · rw [List.getElem?_map] at h
      obtain ⟨y, hy, e⟩ := Option.map_eq_some_iff.1 h
      refine ⟨y, hy, ?_⟩
      subst e
      unfold wakeOn at ho
      split at ho
      · split at ho
        · simp at ho
        · exact ho
      · exact ho
  | own => exact .inl (same rfl hth)
  | doneQ qi d q dq x f c _ hx => exact .inl (upd q.thr _ hth fun e => by simp at e)
  | fin qi q x f thr' bad' _ _ _ _ _ hc =>
    rcases hc with ⟨_, rfl, _⟩ | ⟨u, tt, _, htt, _, rfl, _⟩ | ⟨u, _, _, rfl, _⟩
    · exact .inl (same rfl hth)
    · exact .inl (upd u _ hth fun e => by simp at e)
    · exact .inl (same rfl hth)
  | sig qi q x thr' _ _ _ _ _ hc =>
    rcases hc with ⟨_, rfl⟩ | ⟨w, tw, f, htw, _, rfl⟩
    · exact .inl (same rfl hth)
    · exact .inl (upd w _ hth fun e => by simp at e)

/-- A function object stays in its queue until it is finished. -/
theorem out_stays {s s' : St} (hu : U s) (htr : Tr s s') {i : Nat} {q : Q} {fo : Fo} (hq : s.qs[i]? = some q) (hf : fo ∈ q.outstanding) :
    (∃ q', s'.qs[i]? = some q' ∧ fo ∈ q'.outstanding) ∨
    (∀ t th, fo.sync = some t → s.thr[t]? = some th → th.op = .syncWait i fo false → ∃ th', s'.thr[t]? = some th' ∧ th'.op = .syncWait i fo true) := by
  have upd : ∀ (qi : Nat) (x y : Q), s.qs[qi]? = some x → (∀ f ∈ x.outstanding, f ∈ y.outstanding) →
      ∃ q', (s.qs.set qi y)[i]? = some q' ∧ fo ∈ q'.outstanding := by
    intro qi x y hx h
    by_cases e : qi = i
    · subst e
      rw [hq] at hx; cases hx
      exact ⟨y, List.getElem?_set_self (lt_of_get hq), h fo hf⟩
    · exact ⟨q, by rw [List.getElem?_set_ne e]; exact hq, hf⟩
  cases htr with
  | skip => exact .inl ⟨q, hq, hf⟩
  | spawn => exact .inl ⟨q, hq, hf⟩
  | create m nb hm => exact .inl ⟨q, by simp only; rw [List.getElem?_append_left (lt_of_get hq)]; exact hq, hf⟩
  | startErr => exact .inl ⟨q, hq, hf⟩
  | startInl => exact .inl ⟨q, hq, hf⟩
  | startGot u qi x y f op _ _ hy => exact .inl (upd qi y _ hy fun f h => h)
  | addOk u qi x y f hx _ hy _ =>
    refine .inl (upd qi y _ hy fun f h => ?_)
    simp only [Q.outstanding, List.mem_append] at h ⊢
    rcases h with h | h
    · exact .inl h
    · exact .inr (.inl h)
  | addErr => exact .inl ⟨q, hq, hf⟩
  | addSleep => exact .inl ⟨q, hq, hf⟩
  | wake => exact .inl ⟨q, hq, hf⟩
  | syncRet => exact .inl ⟨q, hq, hf⟩
  | put u qi x y f rc _ _ hy => exact .inl (upd qi y _ hy fun f h => h)
  | inlRet => exact .inl ⟨q, hq, hf⟩
  | dgot u qi x y _ _ hy => exact .inl (upd qi y _ hy fun f h => h)
  | dset u qi x y _ _ hy => exact .inl (upd qi y _ hy fun f h => h)
  | dput u qi x y _ _ hy => exact .inl (upd qi y _ hy fun f h => h)
  | own qi y y' th es hy ht ho hl hk hcc =>
    refine .inl (upd qi y y' hy fun f h => ?_)
    rcases hcc with ⟨hp, _, _, hpe, rfl, rfl⟩ | ⟨fo', rest, m, hp, hbt, rfl, rfl⟩ | ⟨hp, hbt, rfl, rfl⟩ | ⟨fo', m, hp, rfl, rfl⟩ |
        ⟨fo', m, hp, _, rfl, rfl⟩ | ⟨fo', d, hp, hd, hf', rfl, rfl⟩ | ⟨fo', hp, rfl, rfl⟩ | ⟨hp, _, _, rfl, rfl⟩ | ⟨hp, _, rfl, rfl⟩ |
        ⟨hp, _, _, rfl, rfl⟩ | ⟨hp, _, _, rfl, rfl⟩ | ⟨hp, _, rfl, rfl⟩
    all_goals try (simp_all [Q.outstanding, curFo]; done)
    have := (hu.st qi y hy).2.2.2 hp
    simp_all [Q.outstanding, curFo]
  | doneQ qi d y dq x f c hy _ _ _ hp _ hdq =>
    left
    by_cases e : d = i
    · subst e
      by_cases e2 : d = qi
      · subst e2
        rw [hq] at hy; cases hy
        refine ⟨{ q with phase := .fin f, usage := q.usage + 1 }, ?_, ?_⟩
        · simp only [if_true, List.set_set]; exact List.getElem?_set_self (lt_of_get hq)
        · simpa [Q.outstanding, curFo, hp] using hf
      · rw [hq] at hdq; cases hdq
        refine ⟨{ q with usage := q.usage + 1 }, ?_, hf⟩
        simp only [e2, if_false]
        exact List.getElem?_set_self (by rw [List.length_set]; exact lt_of_get hq)
    · simp only
      rw [List.getElem?_set_ne e]
      exact upd qi y _ hy fun f' h => by simpa [Q.outstanding, curFo, hp] using h
  | fin qi y x f thr' bad' hy _ _ _ hp hc =>
    by_cases e : qi = i
    · subst e
      rw [hq] at hy; cases hy
      by_cases e2 : fo ∈ q.batch ++ q.pend
      · left
        exact ⟨_, List.getElem?_set_self (lt_of_get hq), by simpa [Q.outstanding, curFo] using e2⟩
      · right
        intro t th hs ht ho
        have : fo = f := by
          simp only [Q.outstanding, hp, curFo, List.mem_append, List.mem_singleton] at hf e2
          rcases hf with (h | h) | h
          · exact h
          · exact absurd (.inl h) e2
          · exact absurd (.inr h) e2
        subst this
        rcases hc with ⟨h0, _, _⟩ | ⟨u, tt, h0, htt, _, rfl, _⟩ | ⟨u, h0, h1, _, _⟩
        · rw [h0] at hs; simp at hs
        · rw [h0] at hs; cases hs
          exact ⟨_, List.getElem?_set_self (lt_of_get htt), rfl⟩
        · rw [h0] at hs; cases hs
          exact absurd ho (h1 th ht)
    · exact .inl ⟨q, by simp only; rw [List.getElem?_set_ne e]; exact hq, hf⟩
  | sig qi y x thr' hy _ _ _ hp =>
    exact .inl (upd qi y _ hy fun f h => by simpa [Q.outstanding, curFo, hp] using h)

/-- A synchronous caller that waits has its function in the queue. Belongs to the model of kernel/mpq.c:371-491. -/
def SW (s : St) : Prop := ∀ (t : Nat) (th : Thr), s.thr[t]? = some th → ∀ i fo, th.op = .syncWait i fo false →
  fo.sync = some t ∧ ∃ q, s.qs[i]? = some q ∧ fo ∈ q.outstanding

theorem SW_tr {s s' : St} (hu : U s) (hy : Sy s) (hs : SW s) (htr : Tr s s') : SW s' := by
  intro t th' hth' i fo ho
  rcases sw_origin htr hth' ho with ⟨th, hth, hop⟩ | ⟨hsy, th, q', hth, hof, hq', hm⟩
  · obtain ⟨h1, q, hq, hf⟩ := hs t th hth i fo hop
    refine ⟨h1, ?_⟩
    rcases out_stays hu htr hq hf with h | h
    · exact h
    · obtain ⟨x, hx, hxo⟩ := h t th h1 hth hop
      rw [hth'] at hx; cases hx; rw [ho] at hxo; simp at hxo
  · obtain ⟨u, hu⟩ := Option.isSome_iff_exists.1 hsy
    have := hy.o t th hth fo hof u hu
    exact ⟨by rw [hu, this], q', hq', by simp [Q.outstanding, hm]⟩

theorem SW_reach : ∀ s, Reachable s → SW s := by
  intro s h
  exact (reach_induction (P := fun s => Base s ∧ Sy s ∧ SW s) ⟨Base_init, Sy_reach _ ⟨[], rfl⟩, by intro t th h; simp [init] at h⟩
    (fun s s' ⟨h1, h2, h3⟩ ht => ⟨Base_tr h1 ht, Sy_tr h1 h2 ht, SW_tr h1.u h2 h3 ht⟩) s h).2.2

/-! ### Every call made is under way or has its result -/

/-- Belongs to the model of kernel/mpq.c:371-491. -/
def evRes (n : Nat) : Ev → Nat
  | .result _ _ n' _ _ => b2n (n' == n)
  | _ => 0

/-- Belongs to the model of kernel/mpq.c:371-491. -/
def opCall (n : Nat) : Op → Nat
  | .got _ fo => b2n (fo.n == n && !fo.compl)
  | .asleep _ fo => b2n (fo.n == n && !fo.compl)
  | .woken _ fo => b2n (fo.n == n && !fo.compl)
  | .syncWait _ fo _ => b2n (fo.n == n && !fo.compl)
  | .put _ fo _ => b2n (fo.n == n && !fo.compl)
  | _ => 0

/-- Belongs to the model of kernel/mpq.c:371-491. -/
def inCall (n : Nat) (th : Thr) : Nat := opCall n th.op + th.inl.count n

/-- Calls made are calls with a result and calls under way. Belongs to the model of kernel/mpq.c:371-491. -/
def CT (s : St) : Prop := ∀ n, tot (evCalled n) s.log = tot (evRes n) s.log + tot (inCall n) s.thr

theorem CT_same {s s' : St} (h : CT s) {es : List Ev} (hl : s'.log = s.log ++ es) (hth : s'.thr = s.thr)
    (he : ∀ n, tot (evCalled n) es = tot (evRes n) es) : CT s' := by
  intro n
  rw [hl, hth, tot_app', tot_app', h n, he n]
  omega

theorem CT_upd {s s' : St} (h : CT s) {es : List Ev} {t : Nat} {th th' : Thr} (ht : s.thr[t]? = some th) (hl : s'.log = s.log ++ es)
    (hth : s'.thr = s.thr.set t th') (he : ∀ n, tot (evCalled n) es + inCall n th = tot (evRes n) es + inCall n th') : CT s' := by
  intro n
  have h1 := h n
  have h2 := tot_set (inCall n) ht th'
  have h3 := he n
  rw [hl, hth, tot_app', tot_app']
  omega

theorem inCall_wakeOn (n : Nat) (a : Option Nat) (x : Thr) : inCall n (wakeOn a x) = inCall n x := by
  unfold wakeOn
  split
  · rename_i ho
    split
    · simp [inCall, opCall, ho]
    · rfl
  · rfl

theorem CT_tr {s s' : St} (h : CT s) (htr : Tr s s') : CT s' := by
  cases htr with
  | skip => exact h
  | spawn =>
    intro n
    have := h n
    simpa [tot_append, inCall, opCall] using this
  | create m nb hm =>
    intro n
    have := h n
    simpa [tot_append, inCall, opCall] using this
  | startErr t qi th sy dn rc =>
    exact CT_same h (es := [.called t qi s.next sy dn] ++ [.result t qi s.next sy rc]) (by simp) rfl
      (fun n => by simp [tot, evCalled, evRes])
  | startInl t qi th ht ho =>
    exact CT_upd h ht (es := [.called t qi s.next true none] ++ [.inlined qi s.next]) (by simp) rfl
      (fun n => by simp [tot, evCalled, evRes, inCall, List.count_cons, b2n]; omega)
  | startGot t qi th q fo op ht ho _ _ hn hc _ _ _ _ hop =>
    refine CT_upd h ht (es := [.called t qi fo.n fo.sync.isSome fo.done]) rfl rfl fun n => ?_
    rcases hop with rfl | ⟨rc, _, _, rfl⟩ <;> simp [tot, evCalled, evRes, inCall, opCall, hc, ho] <;> omega
  | addOk t qi th q fo ht ho _ _ =>
    refine CT_upd h ht (es := [.queued qi fo.n fo.compl]) rfl rfl fun n => ?_
    simp only [inCall]
    split <;> rcases ho with ho | ho <;> simp [tot, evCalled, evRes, opCall, ho]
  | addErr t qi th q fo rc ht ho =>
    refine CT_upd h ht (es := []) (by simp) rfl fun n => ?_
    rcases ho with ho | ho <;> simp [tot, inCall, opCall, ho]
  | addSleep t qi th q fo ht ho =>
    refine CT_upd h ht (es := []) (by simp) rfl fun n => ?_
    rcases ho with ho | ho <;> simp [tot, inCall, opCall, ho]
  | wake t qi th fo ht ho => exact CT_upd h ht (es := []) (by simp) rfl fun n => by simp [tot, inCall, opCall, ho]
  | syncRet t qi th fo ht ho => exact CT_upd h ht (es := []) (by simp) rfl fun n => by simp [tot, inCall, opCall, ho]
  | put t qi th q fo rc ht ho hq =>
    cases hc : fo.compl with
    | true => exact CT_upd h ht (es := []) (by simp [hc]) rfl fun n => by simp [tot, inCall, opCall, ho, hc, b2n]
    | false =>
      exact CT_upd h ht (es := [.result t qi fo.n fo.sync.isSome rc]) (by simp [hc]) rfl fun n => by
        simp [tot, evCalled, evRes, inCall, opCall, ho, hc]
  | inlRet t qi n0 rest th ht ho hl =>
    exact CT_upd h ht (es := [.inlineRet qi n0] ++ [.result t qi n0 true .ok]) (by simp) rfl fun n => by
      simp [tot, evCalled, evRes, inCall, hl, List.count_cons, b2n]; omega
  | dgot t qi th q ht ho => exact CT_upd h ht (es := []) (by simp) rfl fun n => by simp [tot, inCall, opCall, ho]
  | dset t qi th q ht ho => exact CT_upd h ht (es := []) (by simp) rfl fun n => by simp [tot, inCall, opCall, ho]
  | dput t qi th q ht ho =>
    intro n
    have h1 := h n
    have hwk : wakeOn th.this th = th := by unfold wakeOn; rw [ho]
    have h3 : (s.thr.map (wakeOn th.this))[t]? = some th := by rw [List.getElem?_map, ht]; simp [hwk]
    have h4 := tot_set (inCall n) h3 { th with op := .idle }
    have h5 := tot_map (inCall n) (wakeOn th.this) s.thr (fun a _ => inCall_wakeOn n _ a)
    have h6 : inCall n { th with op := .idle } = inCall n th := by simp [inCall, opCall, ho]
    simp only
    omega
  | own qi q q' th es hq ht ho hl hk hcc =>
    refine CT_same h rfl rfl fun n => ?_
    rcases hcc with ⟨hp, _, _, hpe, rfl, rfl⟩ | ⟨fo', rest, m, hp, hbt, rfl, rfl⟩ | ⟨hp, hbt, rfl, rfl⟩ | ⟨fo', m, hp, rfl, rfl⟩ |
        ⟨fo', m, hp, _, rfl, rfl⟩ | ⟨fo', d, hp, hd, hf', rfl, rfl⟩ | ⟨fo', hp, rfl, rfl⟩ | ⟨hp, _, _, rfl, rfl⟩ | ⟨hp, _, rfl, rfl⟩ |
        ⟨hp, _, _, rfl, rfl⟩ | ⟨hp, _, _, rfl, rfl⟩ | ⟨hp, _, rfl, rfl⟩
    all_goals simp [tot, evCalled, evRes]
  | doneQ qi d q dq th fo c hq ht ho hl hp hd hdq hdi hc =>
    exact CT_upd h ht (es := []) (by simp) rfl fun n => by simp [tot, inCall, opCall, ho, hc, b2n]
  | fin qi q th fo thr' bad' hq ht ho hl hp hc =>
    have he : ∀ n, tot (evCalled n) [Ev.finished qi fo.n fo.compl] = tot (evRes n) [Ev.finished qi fo.n fo.compl] := fun n => by
      simp [tot, evCalled, evRes]
    rcases hc with ⟨_, rfl, _⟩ | ⟨t, tt, _, htt, hop, rfl, _⟩ | ⟨t, _, _, rfl, _⟩
    · exact CT_same h rfl rfl he
    · exact CT_upd h htt rfl rfl fun n => by simp [he, inCall, opCall, hop]
    · exact CT_same h rfl rfl he
  | sig qi q th thr' hq ht ho hl hp hc =>
    rcases hc with ⟨_, rfl⟩ | ⟨w, tw, fo, htw, hop, rfl⟩
    · exact CT_same h (es := []) (by simp) rfl fun n => rfl
    · exact CT_upd h htw (es := []) (by simp) rfl fun n => by simp [tot, inCall, opCall, hop]

theorem CT_reach : ∀ s, Reachable s → CT s := by
  intro s h
  exact reach_induction (P := CT) (by intro n; simp [init, tot]) (fun s s' h3 ht => CT_tr h3 ht) s h

/-- Only a queue's thread runs functions inline. Belongs to the model of kernel/mpq.c:371-491. -/
def IN (s : St) : Prop := ∀ (t : Nat) (th : Thr), s.thr[t]? = some th → th.inl ≠ [] → th.this ≠ none

theorem IN_tr {s s' : St} (h : IN s) (htr : Tr s s') : IN s' := by
  intro t th' hth
  have upd : ∀ (u : Nat) (x y : Thr), (s.thr.set u y)[t]? = some th' → s.thr[u]? = some x → (y.inl ≠ [] → y.this ≠ none) → th'.inl ≠ [] → th'.this ≠ none := by
    intro u x y h2 hx h1
    rcases get_set h2 with ⟨rfl, rfl⟩ | ⟨_, h2⟩
    · exact h1
    · exact h t th' h2
  cases htr with
  | skip => exact h t th' hth
  | spawn =>
    rcases get_append hth with ⟨_, rfl⟩ | ⟨_, h2⟩
    · simp
    · exact h t th' h2
  | create m nb hm =>
    rcases get_append hth with ⟨_, rfl⟩ | ⟨_, h2⟩
    · simp
    · exact h t th' h2
  | startErr => exact h t th' hth
  | startInl u qi x hx _ hthis => exact upd u x _ hth hx (by simp [hthis])
  | startGot u qi x q fo op hx => exact upd u x _ hth hx (h u x hx)
  | addOk u qi x q fo hx => exact upd u x _ hth hx (h u x hx)
  | addErr u qi x q fo rc hx => exact upd u x _ hth hx (h u x hx)
  | addSleep u qi x q fo hx => exact upd u x _ hth hx (h u x hx)
  | wake u qi x fo hx => exact upd u x _ hth hx (h u x hx)
  | syncRet u qi x fo hx => exact upd u x _ hth hx (h u x hx)
  | put u qi x q fo rc hx => exact upd u x _ hth hx (h u x hx)
  | inlRet u qi n rest x hx ho hl hthis => exact upd u x _ hth hx (by simp [hthis])
  | dgot u qi x q hx => exact upd u x _ hth hx (h u x hx)
  | dset u qi x q hx => exact upd u x _ hth hx (h u x hx)
  | dput u qi x q hx =>
    rcases get_set hth with ⟨rfl, rfl⟩ | ⟨_, h2⟩
    · exact h _ x hx
    · rw [List.getElem?_map] at h2
      obtain ⟨y, hy, e⟩ := Option.map_eq_some_iff.1 h2
      have hi : (wakeOn x.this y).inl = y.inl := by unfold wakeOn; split <;> (try split) <;> rfl
      rw [← e, wakeOn_this, hi]
      exact h t y hy
  | own => exact h t th' hth
  | doneQ qi d q dq x fo c _ hx => exact upd q.thr x _ hth hx (h _ x hx)
  | fin qi q x fo thr' bad' _ _ _ _ _ hc =>
    rcases hc with ⟨_, rfl, _⟩ | ⟨u, tt, _, htt, _, rfl, _⟩ | ⟨u, _, _, rfl, _⟩
    · exact h t th' hth
    · exact upd u tt _ hth htt (h u tt htt)
    · exact h t th' hth
  | sig qi q x thr' _ _ _ _ _ hc =>
    rcases hc with ⟨_, rfl⟩ | ⟨w, tw, fo, htw, _, rfl⟩
    · exact h t th' hth
    · exact upd w tw _ hth htw (h w tw htw)

theorem IN_reach : ∀ s, Reachable s → IN s :=
  reach_induction (by intro t th h; simp [init] at h) fun _ _ h ht => IN_tr h ht

/-- Every queue has its thread, which knows it. Belongs to the model of kernel/mpq.c:371-491. -/
def QT (s : St) : Prop := ∀ i x : Nat, (s.qs.map (·.thr))[i]? = some x → (s.thr.map (·.this))[x]? = some (some i)

theorem QT_tr {s s' : St} (h : QT s) (htr : Tr s s') : QT s' := by
  intro i x hx
  rcases shape_tr htr with ⟨h1, h2⟩ | ⟨h1, h2⟩ | ⟨h1, h2⟩
  · rw [h1]; rw [h2] at hx; exact h i x hx
  · rw [h1]; rw [h2] at hx
    have := h i x hx
    rw [List.getElem?_append_left (lt_of_get this)]; exact this
  · rw [h1]; rw [h2] at hx
    rcases get_append hx with ⟨e1, e2⟩ | ⟨_, hx⟩
    · subst e1 e2
      simp
    · have := h i x hx
      rw [List.getElem?_append_left (lt_of_get this)]; exact this

theorem QT_reach : ∀ s, Reachable s → QT s :=
  reach_induction (by intro i x h; simp [init] at h) fun _ _ h ht => QT_tr h ht

theorem queue_thread {s : St} (h : Reachable s) {i : Nat} {q : Q} (hq : s.qs[i]? = some q) : ∃ th, s.thr[q.thr]? = some th ∧ th.this = some i := by
  have := QT_reach s h i q.thr (by rw [List.getElem?_map, hq]; rfl)
  rw [List.getElem?_map] at this
  exact Option.map_eq_some_iff.1 this

theorem target_exists {s : St} (h : Reachable s) {t i : Nat} {th : Thr} (ht : s.thr[t]? = some th) (ho : opOn i th.op = 1) : ∃ q, s.qs[i]? = some q := by
  have hu := (U_reach s h).ran i
  have h1 := tot_le (holds i) ht
  have h2 : holds i th = 1 := ho
  by_cases hl : i < s.qs.length
  · exact ⟨s.qs[i], by simp [hl]⟩
  · have := hu (by omega); omega

/-! ### States in which the library has nothing left to do -/

/-- No call under way can make a step. Belongs to the model of kernel/mpq.c:371-491. -/
def Settled (s : St) : Prop := ∀ a, internal a = true → step s a = none

theorem own_internal {i tq : Nat} {a : Act} (h : ownAct i tq a = true) : internal a = true := by
  cases a <;> simp_all [ownAct, internal]

theorem settled_go {s s' : St} {i tq : Nat} (hs : Settled s) (hg : Go i tq s s') : s' = s := by
  obtain ⟨acts, ha, hr⟩ := hg
  cases acts with
  | nil => simp [run] at hr; exact hr.symm
  | cons a as =>
    have := hs a (own_internal (ha a (by simp)))
    simp [run, this] at hr

/-- A queue whose thread is free has then nothing in it. -/
theorem settled_free {s : St} (h : Reachable s) (hs : Settled s) {i : Nat} {q : Q} {th : Thr} (hq : s.qs[i]? = some q) (ht : s.thr[q.thr]? = some th)
    (ho : th.op = .idle) (hl : th.inl = []) : q.outstanding = [] ∧ q.count = 0 ∧ q.phase = .poll := by
  have hi : IdleQ s i q := ⟨hq, th, ht, ho, hl⟩
  have hst := (U_reach s h).st i q hq
  have hp : q.phase = .poll := by
    obtain ⟨s', q', hg, hi', _, h1, _⟩ := to_poll hi
    have := settled_go hs hg
    subst this
    have e := hi'.1
    rw [hq] at e; cases e; exact h1
  have hpe : q.pend = [] := by
    by_cases hd : q.stage = .fini ∨ q.stage = .dead
    · exact (hst.2.2.1 hd).1
    · obtain ⟨s', q', hg, hi', _, _, h1⟩ := to_empty hi ⟨fun e => hd (.inl e), fun e => hd (.inr e)⟩
      have := settled_go hs hg
      subst this
      have e := hi'.1
      rw [hq] at e; cases e; exact h1
  have hb := hst.2.2.2 hp
  have ho : q.outstanding = [] := by simp [Q.outstanding, hp, curFo, hb, hpe]
  have hc := ((Base_reach s h).g.q i q hq).ct
  exact ⟨ho, by rw [hc, ho]; rfl, hp⟩

/-- Then a thread is outside the library or waits for a queue. -/
theorem settled_thread {s : St} (h : Reachable s) (hs : Settled s) {t : Nat} {th : Thr} (ht : s.thr[t]? = some th) :
    (th.op = .idle ∧ th.inl = []) ∨ ∃ j, waitsFor j th.op := by
  have tgt : ∀ i, opOn i th.op = 1 → ∃ q, s.qs[i]? = some q := fun i => target_exists h ht
  cases ho : th.op with
  | idle =>
    left
    refine ⟨rfl, ?_⟩
    cases hl : th.inl with
    | nil => rfl
    | cons n rest =>
      have hn := IN_reach s h t th ht (by rw [hl]; simp)
      cases hthis : th.this with
      | none => exact absurd hthis hn
      | some qi =>
        have := hs (.inlRet t) rfl
        simp [step, doInlRet, ht, ho, hl, hthis] at this
  | got i fo =>
    obtain ⟨q, hq⟩ := tgt i (by simp [ho, opOn])
    have := hs (.add t) rfl
    simp only [step, doAdd, ht, ho, hq, Option.bind_eq_bind, Option.bind_some] at this
    split at this <;> simp at this
  | asleep i fo => exact .inr ⟨i, fo, .inl rfl⟩
  | woken i fo =>
    obtain ⟨q, hq⟩ := tgt i (by simp [ho, opOn])
    have := hs (.add t) rfl
    simp [step, doAdd, ht, ho, hq] at this
  | syncWait i fo b =>
    cases b with
    | false => exact .inr ⟨i, fo, .inr rfl⟩
    | true =>
      have := hs (.syncRet t) rfl
      simp [step, doSyncRet, ht, ho] at this
  | put i fo rc =>
    obtain ⟨q, hq⟩ := tgt i (by simp [ho, opOn])
    have := hs (.put t) rfl
    simp only [step, doPut, ht, ho, hq, Option.bind_eq_bind, Option.bind_some] at this
    split at this <;> simp at this
  | dgot i =>
    obtain ⟨q, hq⟩ := tgt i (by simp [ho, opOn])
    have := hs (.dset t) rfl
    simp [step, doDset, ht, ho, hq] at this
  | dterm i =>
    obtain ⟨q, hq⟩ := tgt i (by simp [ho, opOn])
    have := hs (.dput t) rfl
    simp [step, doDput, ht, ho, hq] at this

/-- And the queue waited for has its own thread waiting. -/
theorem settled_target {s : St} (h : Reachable s) (hs : Settled s) {t j : Nat} {th : Thr} (ht : s.thr[t]? = some th) (hw : waitsFor j th.op) :
    ∃ k, QWaits s j k := by
  obtain ⟨fo, hw⟩ := hw
  obtain ⟨q, hq⟩ := target_exists h ht (i := j) (by rcases hw with e | e <;> simp [e, opOn])
  obtain ⟨tq, htq, _⟩ := queue_thread h hq
  rcases settled_thread h hs htq with ⟨ho, hl⟩ | ⟨k, hk⟩
  · exfalso
    obtain ⟨h1, h2, h3⟩ := settled_free h hs hq htq ho hl
    rcases hw with e | e
    · rcases C99_no_lost_wakeup_partial s h j t q th fo hq ht e with h4 | ⟨t', th', fo', ht', ho'⟩ | h4
      · have := (BL_reach s h).m j q hq; omega
      · rcases settled_thread h hs ht' with ⟨h5, _⟩ | ⟨k, f, h5⟩
        · rw [ho'] at h5; cases h5
        · rw [ho'] at h5; simp at h5
      · rw [h3] at h4; cases h4
    · obtain ⟨_, q', hq', hm⟩ := SW_reach s h t th ht j fo e
      rw [hq] at hq'; cases hq'
      rw [h1] at hm; simp at hm
  · exact ⟨k, q, tq, hq, htq, hk⟩

end Verif.Mpq
