import Verif.MpqProps

/-!
# Destroying a queue from another queue's thread

kernel/mpq.c:1639-1691 (`__mpq_destroy`), 470-483 (the `AOSL_EINTR` way out of `____add_f`): the queue being destroyed must not stay blocked on the full queue of its destroyer,
which may be going to wait for it.  The model is that of `Verif.Mpq`.
-/

namespace Verif.Mpq

/-- `terminated` is never reset. -/
theorem term_stays {s s' : St} {i : Nat} (h : ∃ q, s.qs[i]? = some q ∧ q.term = true) (htr : Tr s s') : ∃ q, s'.qs[i]? = some q ∧ q.term = true := by
  obtain ⟨q, hq, ht⟩ := h
  have keep : ∀ (qi : Nat) (x y : Q), s.qs[qi]? = some x → (x.term = true → y.term = true) →
      ∃ q', (s.qs.set qi y)[i]? = some q' ∧ q'.term = true := by
    intro qi x y hx h1
    by_cases hi : qi = i
    · subst hi
      rw [hq] at hx; cases hx
      exact ⟨y, by simp [lt_of_get hq], h1 ht⟩
    · exact ⟨q, by rw [List.getElem?_set_ne hi]; exact hq, ht⟩
  cases htr with
  | skip => exact ⟨q, hq, ht⟩
  | spawn => exact ⟨q, hq, ht⟩
  | create m nb hm => exact ⟨q, by simp only; rw [List.getElem?_append_left (lt_of_get hq)]; exact hq, ht⟩
  | startErr => exact ⟨q, hq, ht⟩
  | startInl => exact ⟨q, hq, ht⟩
  | startGot t qi th x fo op _ _ hx => exact keep qi x _ hx id
  | addOk t qi th x fo _ _ hx => exact keep qi x _ hx id
  | addErr => exact ⟨q, hq, ht⟩
  | addSleep => exact ⟨q, hq, ht⟩
  | wake => exact ⟨q, hq, ht⟩
  | syncRet => exact ⟨q, hq, ht⟩
  | put t qi th x fo rc _ _ hx => exact keep qi x _ hx id
  | inlRet => exact ⟨q, hq, ht⟩
  | dgot t qi th x _ _ hx => exact keep qi x _ hx id
  | dset t qi th x _ _ hx => exact keep qi x _ hx fun _ => rfl
  | dput t qi th x _ _ hx => exact keep qi x _ hx id
  | own qi x y th es hx _ _ _ hk => exact keep qi x y hx (by rw [hk.2.2.2.2]; exact id)
  | doneQ qi d x dq th fo c hx ht' ho hl hp hd hdq hdi hc =>
    simp only
    by_cases hi : d = i
    · subst hi
      rw [hq] at hdq; cases hdq
      rw [List.getElem?_set_self (by simp [lt_of_get hq])]
      refine ⟨_, rfl, ?_⟩
      split
      · rename_i he; subst he; rw [hq] at hx; cases hx; exact ht
      · exact ht
    · rw [List.getElem?_set_ne hi]
      exact keep qi x _ hx id
  | fin qi x th fo thr' bad' hx => exact keep qi x _ hx id
  | sig qi x th thr' hx => exact keep qi x _ hx id

theorem wakeOn_this (a : Option Nat) (y : Thr) : (wakeOn a y).this = y.this := by
  unfold wakeOn; split
  · split <;> rfl
  · rfl

theorem wakeOn_asleep {a : Option Nat} {y : Thr} {i : Nat} {fo : Fo} (h : (wakeOn a y).op = .asleep i fo) : y.op = .asleep i fo ∧ a ≠ some i := by
  unfold wakeOn at h
  split at h
  · rename_i qi fo' ho
    split at h
    · simp at h
    · rename_i hne
      rw [ho] at h
      simp only [Op.asleep.injEq] at h
      obtain ⟨rfl, rfl⟩ := h
      exact ⟨ho, hne⟩
  · rename_i hne
    exact absurd h (fun e => hne i fo e)

/-- A thread keeps its queue, and falls asleep only if its queue has not been told to terminate. -/
theorem thr_tr {s s' : St} (htr : Tr s s') {t : Nat} {th : Thr} (hth : s.thr[t]? = some th) :
    ∃ th', s'.thr[t]? = some th' ∧ th'.this = th.this ∧ ∀ i fo, th'.op = .asleep i fo → th.op = .asleep i fo ∨ s.termThis th = false := by
  have same : ∃ th', s.thr[t]? = some th' ∧ th'.this = th.this ∧ ∀ i fo, th'.op = .asleep i fo → th.op = .asleep i fo ∨ s.termThis th = false :=
    ⟨th, hth, rfl, fun _ _ h => .inl h⟩
  have upd : ∀ (t' : Nat) (x y : Thr), s.thr[t']? = some x → y.this = x.this → (∀ i fo, y.op = .asleep i fo → x.op = .asleep i fo ∨ s.termThis x = false) →
      ∃ th', (s.thr.set t' y)[t]? = some th' ∧ th'.this = th.this ∧ ∀ i fo, th'.op = .asleep i fo → th.op = .asleep i fo ∨ s.termThis th = false := by
    intro t' x y hx h1 h2
    by_cases he : t' = t
    · subst he
      rw [hth] at hx; cases hx
      exact ⟨y, List.getElem?_set_self (lt_of_get hth), h1, h2⟩
    · exact ⟨th, by rw [List.getElem?_set_ne he]; exact hth, rfl, fun _ _ h => .inl h⟩
  cases htr with
  | skip => exact same
  | spawn => exact ⟨th, by simp only; rw [List.getElem?_append_left (lt_of_get hth)]; exact hth, rfl, fun _ _ h => .inl h⟩
  | create m nb hm => exact ⟨th, by simp only; rw [List.getElem?_append_left (lt_of_get hth)]; exact hth, rfl, fun _ _ h => .inl h⟩
  | startErr => exact same
  | startInl t' qi x hx => exact upd t' x { x with inl := s.next :: x.inl } hx rfl (fun _ _ h => .inl h)
  | startGot t' qi x q fo op hx _ _ _ _ _ _ _ _ _ hop =>
    refine upd t' x { x with op := op } hx rfl fun i fo' h => ?_
    rcases hop with e | ⟨rc, _, _, e⟩ <;> simp [e] at h
  | addOk t' qi x q fo hx =>
    refine upd t' x _ hx rfl fun i fo' h => ?_
    simp only at h
    split at h <;> simp at h
  | addErr t' qi x q fo rc hx => exact upd t' x { x with op := .put qi fo rc } hx rfl fun i fo' h => by simp at h
  | addSleep t' qi x q fo hx _ _ _ _ htt => exact upd t' x { x with op := .asleep qi fo } hx rfl fun i fo' h => .inr htt
  | wake t' qi x fo hx => exact upd t' x { x with op := .woken qi fo } hx rfl fun i fo' h => by simp at h
  | syncRet t' qi x fo hx => exact upd t' x { x with op := .put qi fo .ok } hx rfl fun i fo' h => by simp at h
  | put t' qi x q fo rc hx => exact upd t' x { x with op := .idle } hx rfl fun i fo' h => by simp at h
  | inlRet t' qi n rest x hx => exact upd t' x { x with inl := rest } hx rfl fun _ _ h => .inl h
  | dgot t' qi x q hx => exact upd t' x { x with op := .dgot qi } hx rfl fun i fo' h => by simp at h
  | dset t' qi x q hx => exact upd t' x { x with op := .dterm qi } hx rfl fun i fo' h => by simp at h
  | dput t' qi x q hx =>
    by_cases he : t' = t
    · subst he
      rw [hth] at hx; cases hx
      exact ⟨{ th with op := .idle }, List.getElem?_set_self (by rw [List.length_map]; exact lt_of_get hth), rfl, fun i fo' h => by simp at h⟩
    · refine ⟨wakeOn x.this th, by simp only; rw [List.getElem?_set_ne he, List.getElem?_map, hth]; rfl, wakeOn_this .., fun i fo h => .inl (wakeOn_asleep h).1⟩
  | own => exact same
  | doneQ qi d q dq x fo c _ hx => exact upd q.thr x { x with op := .got d c } hx rfl fun i fo' h => by simp at h
  | fin qi q x fo thr' bad' _ _ _ _ _ hc =>
    rcases hc with ⟨_, rfl, _⟩ | ⟨t', tt, _, htt, _, rfl, _⟩ | ⟨t', _, _, rfl, _⟩
    · exact same
    · exact upd t' tt { tt with op := .syncWait qi fo true } htt rfl fun i fo' h => by simp at h
    · exact same
  | sig qi q x thr' _ _ _ _ _ hc =>
    rcases hc with ⟨_, rfl⟩ | ⟨w, tw, fo, htw, _, rfl⟩
    · exact same
    · exact upd w tw { tw with op := .woken qi fo } htw rfl fun i fo' h => by simp at h

/-- Thread `tb` is the thread of queue `b`, which has been told to terminate, and it is not asleep waiting for room in queue `a`. Belongs to the model of kernel/mpq.c:1639-1691. -/
def Released (s : St) (a b tb : Nat) : Prop :=
  (∃ q, s.qs[b]? = some q ∧ q.term = true) ∧ ∃ th, s.thr[tb]? = some th ∧ th.this = some b ∧ ∀ fo, th.op ≠ .asleep a fo

theorem released_tr {s s' : St} {a b tb : Nat} (h : Released s a b tb) (htr : Tr s s') : Released s' a b tb := by
  obtain ⟨hq, th, h1, h2, h3⟩ := h
  obtain ⟨th', e1, e2, e3⟩ := thr_tr htr h1
  refine ⟨term_stays hq htr, th', e1, e2.trans h2, fun fo hf => ?_⟩
  rcases e3 a fo hf with h | h
  · exact h3 fo h
  · obtain ⟨q, hq1, hq2⟩ := hq
    simp only [St.termThis, h2, hq1, hq2] at h
    simp at h

theorem released_run {a b tb : Nat} : ∀ (acts : List Act) (s : St), Released s a b tb → ∀ s', run s acts = some s' → Released s' a b tb := by
  intro acts
  induction acts with
  | nil => intro s h s' hr; simp [run] at hr; subst hr; exact h
  | cons x xs ih =>
    intro s h s' hr
    simp only [run] at hr
    split at hr
    · rename_i s1 h1
      exact ih s1 (released_tr h (step_tr h1)) s' hr
    · simp at hr

/-- **C121**: when a function on queue `a` has destroyed queue `b` (the destroying call is about to return), then from then on, whatever happens, `b`'s thread `tb` is never asleep waiting
for room in `a`'s queue: neither if it was so before, nor by trying again. So `a` may wait for `b` to end. -/
theorem C121_released (s s1 : St) (t a b tb : Nat) (th thb : Thr) (ht : s.thr[t]? = some th) (hta : th.this = some a) (hop : th.op = .dterm b)
    (hterm : ∃ q, s.qs[b]? = some q ∧ q.term = true) (htb : s.thr[tb]? = some thb) (hthis : thb.this = some b) (hs : step s (.dput t) = some s1)
    (acts : List Act) (s' : St) (hr : run s1 acts = some s') : ∃ th', s'.thr[tb]? = some th' ∧ th'.this = some b ∧ ∀ fo, th'.op ≠ .asleep a fo := by
  suffices h : Released s1 a b tb from (released_run acts s1 h s' hr).2
  refine ⟨term_stays hterm (step_tr hs), ?_⟩
  obtain ⟨q, hq, _⟩ := hterm
  simp only [step, doDput, ht, Option.bind_eq_bind, Option.bind_some, hop, hq, Option.some.injEq] at hs
  subst hs
  simp only [St.setQ, St.setT]
  by_cases he : t = tb
  · subst he
    rw [ht] at htb; cases htb
    exact ⟨{ th with op := .idle }, List.getElem?_set_self (by rw [List.length_map]; exact lt_of_get ht), hthis, by simp⟩
  · refine ⟨wakeOn th.this thb, by rw [List.getElem?_set_ne he, List.getElem?_map, htb]; rfl, by rw [wakeOn_this, hthis], fun fo hf => ?_⟩
    exact (wakeOn_asleep hf).2 hta

/-- The state between `q->terminated = 1` and the return of the destroying call, used in `C121_released`, has `terminated` set. -/
theorem C121_dterm (s s1 : St) (t b : Nat) (th : Thr) (ht : s.thr[t]? = some th) (hop : th.op = .dgot b) (hs : step s (.dset t) = some s1) :
    (∃ q, s1.qs[b]? = some q ∧ q.term = true) ∧ ∃ th', s1.thr[t]? = some th' ∧ th'.op = .dterm b ∧ th'.this = th.this := by
  simp only [step, doDset, ht, Option.bind_eq_bind, Option.bind_some, hop] at hs
  cases hq : s.qs[b]? with
  | none => simp [hq] at hs
  | some q =>
    simp only [hq, Option.bind_eq_bind, Option.bind_some, Option.some.injEq] at hs
    subst hs
    exact ⟨⟨{ q with term := true }, List.getElem?_set_self (lt_of_get hq), rfl⟩, { th with op := .dterm b }, List.getElem?_set_self (lt_of_get ht), rfl, rfl⟩

/-- **C121**: the call of a thread woken up, whose queue has been told to terminate, to a blocking queue that is still full returns EINTR without queueing anything. -/
theorem C121_eintr (s : St) (tb a b : Nat) (th : Thr) (fo : Fo) (q qb : Q) (ht : s.thr[tb]? = some th) (hthis : th.this = some b) (hop : th.op = .woken a fo)
    (hc : fo.compl = false) (hnf : fo.noFail = false) (hq : s.qs[a]? = some q) (hnb : q.nonblock = false) (hfull : q.max ≤ q.count) (hqb : s.qs[b]? = some qb) (hterm : qb.term = true) :
    run s [.add tb, .put tb] = some { s with qs := s.qs.set a { q with usage := q.usage - 1 }, thr := s.thr.set tb { th with op := .idle },
                                             log := s.log ++ [.result tb a fo.n fo.sync.isSome .eintr] } := by
  have e1 : step s (.add tb) = some { s with thr := s.thr.set tb { th with op := .put a fo .eintr } } := by
    have ht' : s.termThis th = true := by simp [St.termThis, hthis, hqb, hterm]
    simp [step, doAdd, ht, hop, hq, lockedAdd, hnf, Nat.not_lt.2 hfull, hnb, ht', St.setT]
  simp only [run, e1]
  have g1 : (s.thr.set tb { th with op := Op.put a fo .eintr })[tb]? = some { th with op := .put a fo .eintr } := List.getElem?_set_self (lt_of_get ht)
  simp [step, doPut, g1, hq, hc, St.setQ, St.setT, St.emit]

/-! ### Destroyed by somebody else -/

/-- An action of the thread of queue `a` (number `ta`), or a spurious wake-up of thread `tb`. Belongs to the model of kernel/mpq.c:1639-1691. -/
def mayRelease (a ta tb : Nat) : Act → Bool
  | .sig q _ => q == a
  | .dput t => t == ta
  | .wake t => t == tb
  | _ => false

theorem asleep_step {s s' : St} {a ta tb : Nat} {th : Thr} {fo : Fo} {x : Act} (hth : s.thr[tb]? = some th) (ho : th.op = .asleep a fo)
    (huniq : ∀ t y, s.thr[t]? = some y → y.this = some a → t = ta) (hx : mayRelease a ta tb x = false) (hs : step s x = some s') : s'.thr[tb]? = some th := by
  have ni : th.op ≠ .idle := by rw [ho]; simp
  have own : ∀ {qi : Nat} {f : Q → Option St}, ownStep s qi f = some s' → (∀ q, f q = some s' → s'.thr = s.thr ∨ ∃ t' y z, s.thr[t']? = some y ∧ y.op ≠ th.op ∧ s'.thr = s.thr.set t' z) →
      s'.thr[tb]? = some th := by
    intro qi f h hf
    obtain ⟨q, _, _, _, _, _, h6⟩ := ownStep_some h
    rcases hf q h6 with e | ⟨t', y, z, e1, e2, e3⟩
    · rw [e]; exact hth
    · rw [e3, List.getElem?_set_ne]; exact hth
      rintro rfl; rw [hth] at e1; cases e1; exact e2 rfl
  have bnd : ∀ {t' : Nat} {f : Thr → Option St}, (do let y ← s.thr[t']?; f y) = some s' → 
      (∀ y, f y = some s' → s'.thr = s.thr ∨ y.op ≠ th.op ∧ ∃ z, s'.thr = s.thr.set t' z) → s'.thr[tb]? = some th := by
    intro t' f h hf
    cases hy : s.thr[t']? with
    | none => simp [hy] at h
    | some y =>
      simp only [hy, Option.bind_eq_bind, Option.bind_some] at h
      rcases hf y h with e | ⟨e2, z, e3⟩
      · rw [e]; exact hth
      · rw [e3, List.getElem?_set_ne]; exact hth
        rintro rfl; rw [hth] at hy; cases hy; exact e2 rfl
  cases x with
  | spawn => simp only [step, doSpawn, Option.some.injEq] at hs; subst hs; simp only; rw [List.getElem?_append_left (lt_of_get hth)]; exact hth
  | create m nb =>
    simp only [step, doCreate, Option.some.injEq] at hs
    split at hs <;> subst hs
    · exact hth
    · simp only; rw [List.getElem?_append_left (lt_of_get hth)]; exact hth
  | start t q k ar =>
    refine bnd (hs : doStart s t q k ar = some s') fun y hy => ?_
    by_cases hc : y.op ≠ .idle ∨ s.alive y = false
    · rw [if_pos hc] at hy; simp at hy
    · rw [if_neg hc] at hy
      have hyi : y.op ≠ th.op := by
        have : y.op = .idle := by simpa using fun e => hc (.inl e)
        rw [this]; exact ni.symm
      simp only at hy
      split at hy
      · split at hy <;> simp only [Option.some.injEq] at hy <;> subst hy
        · exact .inl rfl
        · exact .inr ⟨hyi, _, rfl⟩
      · split at hy
        · simp only [Option.some.injEq] at hy; subst hy; exact .inl rfl
        · split at hy <;> simp only [Option.some.injEq] at hy <;> subst hy <;> exact .inr ⟨hyi, _, rfl⟩
  | add t =>
    refine bnd (hs : doAdd s t = some s') fun y hy => ?_
    have la : ∀ qi q fo', lockedAdd s t y qi q fo' = s' → ∃ z, s'.thr = s.thr.set t z := by
      intro qi q fo' h
      unfold lockedAdd at h
      split at h
      · subst h; exact ⟨_, rfl⟩
      · split at h
        · subst h; exact ⟨_, rfl⟩
        · split at h <;> subst h <;> exact ⟨_, rfl⟩
    split at hy
    · rename_i qi fo' hyo
      have hne : y.op ≠ th.op := by rw [hyo, ho]; simp
      cases hq : s.qs[qi]? with
      | none => simp [hq] at hy
      | some q =>
        simp only [hq, Option.bind_eq_bind, Option.bind_some] at hy
        split at hy
        · simp only [Option.some.injEq] at hy; subst hy; exact .inr ⟨hne, _, rfl⟩
        · simp only [Option.some.injEq] at hy; exact .inr ⟨hne, la _ _ _ hy⟩
    · rename_i qi fo' hyo
      have hne : y.op ≠ th.op := by rw [hyo, ho]; simp
      cases hq : s.qs[qi]? with
      | none => simp [hq] at hy
      | some q =>
        simp only [hq, Option.bind_eq_bind, Option.bind_some, Option.some.injEq] at hy
        exact .inr ⟨hne, la _ _ _ hy⟩
    · simp at hy
  | wake t =>
    have htt : t ≠ tb := by simpa [mayRelease] using hx
    replace hs : doWake s t = some s' := hs
    unfold doWake at hs
    cases hy : s.thr[t]? with
    | none => simp [hy] at hs
    | some y =>
      simp only [hy, Option.bind_eq_bind, Option.bind_some] at hs
      split at hs
      · simp only [Option.some.injEq] at hs; subst hs
        simp only [St.setT]; rw [List.getElem?_set_ne htt]; exact hth
      · simp at hs
  | syncRet t =>
    refine bnd (hs : doSyncRet s t = some s') fun y hy => ?_
    split at hy
    · rename_i hyo; simp only [Option.some.injEq] at hy; subst hy; exact .inr ⟨by rw [hyo, ho]; simp, _, rfl⟩
    · simp at hy
  | put t =>
    refine bnd (hs : doPut s t = some s') fun y hy => ?_
    split at hy
    · rename_i qi fo' rc hyo
      have hne : y.op ≠ th.op := by rw [hyo, ho]; simp
      cases hq : s.qs[qi]? with
      | none => simp [hq] at hy
      | some q =>
        simp only [hq, Option.bind_eq_bind, Option.bind_some] at hy
        split at hy <;> simp only [Option.some.injEq] at hy <;> subst hy <;> exact .inr ⟨hne, _, rfl⟩
    · simp at hy
  | inlRet t =>
    refine bnd (hs : doInlRet s t = some s') fun y hy => ?_
    split at hy
    · rename_i hyo _ _; simp only [Option.some.injEq] at hy; subst hy; exact .inr ⟨by rw [hyo, ho]; simp, _, rfl⟩
    · simp at hy
  | destroy t q =>
    refine bnd (hs : doDestroy s t q = some s') fun y hy => ?_
    by_cases hc : y.op ≠ .idle ∨ s.alive y = false
    · rw [if_pos hc] at hy; simp at hy
    · rw [if_neg hc] at hy
      have hyi : y.op ≠ th.op := by
        have : y.op = .idle := by simpa using fun e => hc (.inl e)
        rw [this]; exact ni.symm
      split at hy <;> simp only [Option.some.injEq] at hy <;> subst hy
      · exact .inl rfl
      · exact .inr ⟨hyi, _, rfl⟩
  | dset t =>
    refine bnd (hs : doDset s t = some s') fun y hy => ?_
    split at hy
    · rename_i qi hyo
      have hne : y.op ≠ th.op := by rw [hyo, ho]; simp
      cases hq : s.qs[qi]? with
      | none => simp [hq] at hy
      | some q => simp only [hq, Option.bind_eq_bind, Option.bind_some, Option.some.injEq] at hy; subst hy; exact .inr ⟨hne, _, rfl⟩
    · simp at hy
  | dput t =>
    have htt : t ≠ ta := by simpa [mayRelease] using hx
    replace hs : doDput s t = some s' := hs
    unfold doDput at hs
    cases hy : s.thr[t]? with
    | none => simp [hy] at hs
    | some y =>
      simp only [hy, Option.bind_eq_bind, Option.bind_some] at hs
      split at hs
      · rename_i qi hyo
        cases hq : s.qs[qi]? with
        | none => simp [hq] at hs
        | some q =>
          simp only [hq, Option.bind_eq_bind, Option.bind_some, Option.some.injEq] at hs
          subst hs
          have hne : t ≠ tb := by rintro rfl; rw [hth] at hy; cases hy; rw [ho] at hyo; simp at hyo
          simp only [St.setQ, St.setT]
          rw [List.getElem?_set_ne hne, List.getElem?_map, hth]
          have : wakeOn y.this th = th := by
            unfold wakeOn
            rw [ho]
            simp only
            rw [if_neg (fun e => htt (huniq t y hy e))]
          simp [this]
      · simp at hs
  | take q =>
    refine own (hs : doTake s q = some s') fun q' h => ?_
    left
    split at h
    · simp at h
    · simp at h
    · split at h
      · simp at h
      · simp only [Option.some.injEq] at h; subst h; rfl
    · simp at h
  | invoke q m =>
    refine own (hs : doInvoke s q m = some s') fun q' h => ?_
    left
    split at h
    · simp only [Option.some.injEq] at h; subst h; rfl
    · simp at h
  | loopEnd q =>
    refine own (hs : doLoopEnd s q = some s') fun q' h => ?_
    left
    split at h
    · simp only [Option.some.injEq] at h; subst h; rfl
    · simp at h
  | ret q =>
    refine own (hs : doRet s q = some s') fun q' h => ?_
    left
    split at h
    · simp only [Option.some.injEq] at h; subst h; rfl
    · simp at h
  | done q =>
    have hs' : doDone s q = some s' := hs
    obtain ⟨q0, y, hq0, hy, hyo, _, h⟩ := ownStep_some hs'
    have hne : q0.thr ≠ tb := by rintro rfl; rw [hth] at hy; cases hy; exact ni hyo
    split at h
    · split at h
      · simp only [Option.some.injEq] at h; subst h; exact hth
      · split at h
        · simp only [Option.some.injEq] at h; subst h; exact hth
        · split at h
          · simp only [Option.some.injEq] at h; subst h; exact hth
          · simp only at h
            split at h
            · simp only [Option.some.injEq] at h; subst h
              simp only [St.setT, St.setQ]; rw [List.getElem?_set_ne hne]; exact hth
            · simp at h
    · simp at h
  | freeRet q =>
    refine own (hs : doFreeRet s q = some s') fun q' h => ?_
    left
    split at h
    · simp only [Option.some.injEq] at h; subst h; rfl
    · simp at h
  | fin q =>
    refine own (hs : doFin s q = some s') fun q' h => ?_
    split at h
    · simp only at h
      split at h
      · simp only [Option.some.injEq] at h; subst h; exact .inl rfl
      · split at h
        · rename_i y hy
          split at h
          · rename_i hyo
            simp only [Option.some.injEq] at h; subst h
            exact .inr ⟨_, y, _, hy, by rw [hyo, ho]; simp, rfl⟩
          · simp only [Option.some.injEq] at h; subst h; exact .inl rfl
        · simp only [Option.some.injEq] at h; subst h; exact .inl rfl
    · simp at h
  | sig q w =>
    have hqa : q ≠ a := by simpa [mayRelease] using hx
    refine own (hs : doSig s q w = some s') fun q' h => ?_
    split at h
    · simp only at h
      split at h
      · split at h
        · rename_i y hy
          split at h
          · rename_i qj fo' hyo
            split at h
            · rename_i e
              simp only [Option.some.injEq] at h; subst h
              exact .inr ⟨w, y, _, hy, by rw [hyo, ho, e]; simp [hqa], rfl⟩
            · simp at h
          · simp at h
        · simp at h
      · simp only [Option.some.injEq] at h; subst h; exact .inl rfl
    · simp at h
  | exit q =>
    refine own (hs : doExit s q = some s') fun q' h => ?_
    left
    split at h
    · simp only [Option.some.injEq] at h; subst h; rfl
    · simp at h
  | uninst q =>
    refine own (hs : doUninst s q = some s') fun q' h => ?_
    left
    split at h
    · simp only [Option.some.injEq] at h; subst h; rfl
    · simp at h
  | seenOne q =>
    refine own (hs : doSeenOne s q = some s') fun q' h => ?_
    left
    split at h
    · simp only [Option.some.injEq] at h; subst h; rfl
    · simp at h
  | drained q =>
    refine own (hs : doDrained s q = some s') fun q' h => ?_
    left
    split at h
    · simp only [Option.some.injEq] at h; subst h; rfl
    · simp at h
  | free q =>
    refine own (hs : doFree s q = some s') fun q' h => ?_
    left
    split at h
    · simp only [Option.some.injEq] at h; subst h; rfl
    · simp at h

theorem map_set_same {α β : Type} (f : α → β) (l : List α) (i : Nat) (x y : α) (h : l[i]? = some x) (e : f y = f x) : (l.set i y).map f = l.map f := by
  rw [List.map_set]
  apply List.ext_getElem?
  intro j
  by_cases hj : i = j
  · subst hj
    rw [List.getElem?_set_self (by rw [List.length_map]; exact lt_of_get h), List.getElem?_map, h]
    simp [e]
  · rw [List.getElem?_set_ne hj]

/-- Every queue has its own thread: which thread serves which queue changes only when one is created. -/
theorem shape_tr {s s' : St} (htr : Tr s s') :
    (s'.thr.map (·.this) = s.thr.map (·.this) ∧ s'.qs.map (·.thr) = s.qs.map (·.thr)) ∨
    (s'.thr.map (·.this) = s.thr.map (·.this) ++ [none] ∧ s'.qs.map (·.thr) = s.qs.map (·.thr)) ∨
    (s'.thr.map (·.this) = s.thr.map (·.this) ++ [some s.qs.length] ∧ s'.qs.map (·.thr) = s.qs.map (·.thr) ++ [s.thr.length]) := by
  cases htr with
  | skip => exact .inl ⟨rfl, rfl⟩
  | spawn => exact .inr (.inl ⟨by simp, rfl⟩)
  | create m nb hm => exact .inr (.inr ⟨by simp, by simp⟩)
  | startErr => exact .inl ⟨rfl, rfl⟩
  | startInl t' qi x hx => exact .inl ⟨map_set_same _ _ _ _ _ hx rfl, rfl⟩
  | startGot t' qi x q fo op hx _ hq => exact .inl ⟨map_set_same _ _ _ _ _ hx rfl, map_set_same _ _ _ _ _ hq rfl⟩
  | addOk t' qi x q fo hx _ hq => exact .inl ⟨map_set_same _ _ _ _ _ hx rfl, map_set_same _ _ _ _ _ hq rfl⟩
  | addErr t' qi x q fo rc hx => exact .inl ⟨map_set_same _ _ _ _ _ hx rfl, rfl⟩
  | addSleep t' qi x q fo hx => exact .inl ⟨map_set_same _ _ _ _ _ hx rfl, rfl⟩
  | wake t' qi x fo hx => exact .inl ⟨map_set_same _ _ _ _ _ hx rfl, rfl⟩
  | syncRet t' qi x fo hx => exact .inl ⟨map_set_same _ _ _ _ _ hx rfl, rfl⟩
  | put t' qi x q fo rc hx _ hq => exact .inl ⟨map_set_same _ _ _ _ _ hx rfl, map_set_same _ _ _ _ _ hq rfl⟩
  | inlRet t' qi n rest x hx => exact .inl ⟨map_set_same _ _ _ _ _ hx rfl, rfl⟩
  | dgot t' qi x q hx _ hq => exact .inl ⟨map_set_same _ _ _ _ _ hx rfl, map_set_same _ _ _ _ _ hq rfl⟩
  | dset t' qi x q hx _ hq => exact .inl ⟨map_set_same _ _ _ _ _ hx rfl, map_set_same _ _ _ _ _ hq rfl⟩
  | dput t' qi x q hx ho hq =>
    refine .inl ⟨?_, map_set_same _ _ _ _ _ hq rfl⟩
    simp only
    rw [map_set_same (·.this) _ t' (wakeOn x.this x) _ (by rw [List.getElem?_map, hx]; rfl) (by simp [wakeOn_this]), List.map_map]
    apply List.map_congr_left
    intro y _
    exact wakeOn_this ..
  | own qi x y th es hx _ _ _ hk => exact .inl ⟨rfl, map_set_same _ _ _ _ _ hx hk.1⟩
  | doneQ qi d x dq th fo c hx ht' ho hl hp hd hdq hdi hc =>
    refine .inl ⟨map_set_same _ _ _ _ _ ht' rfl, ?_⟩
    have h1 : (s.qs.set qi { x with phase := .fin fo }).map (·.thr) = s.qs.map (·.thr) := map_set_same _ _ _ _ _ hx rfl
    simp only
    rw [← h1]
    by_cases e : d = qi
    · subst e
      exact map_set_same _ _ _ { x with phase := .fin fo } _ (List.getElem?_set_self (lt_of_get hx)) (by simp)
    · exact map_set_same _ _ _ dq _ (by rw [List.getElem?_set_ne (fun h => e h.symm)]; exact hdq) (by simp [e])
  | fin qi q x fo thr' bad' hq _ _ _ _ hc =>
    refine .inl ⟨?_, map_set_same _ _ _ _ _ hq rfl⟩
    rcases hc with ⟨_, rfl, _⟩ | ⟨t', tt, _, htt, _, rfl, _⟩ | ⟨t', _, _, rfl, _⟩
    · rfl
    · exact map_set_same _ _ _ _ _ htt rfl
    · rfl
  | sig qi q x thr' hq _ _ _ _ hc =>
    refine .inl ⟨?_, map_set_same _ _ _ _ _ hq rfl⟩
    rcases hc with ⟨_, rfl⟩ | ⟨w, tw, fo, htw, _, rfl⟩
    · rfl
    · exact map_set_same _ _ _ _ _ htw rfl

/-- The thread that serves queue `i` is the one recorded in it. Belongs to the model of kernel/mpq.c:1639-1691. -/
def Served (s : St) : Prop := ∀ t i : Nat, (s.thr.map (·.this))[t]? = some (some i) → (s.qs.map (·.thr))[i]? = some t

theorem served_tr {s s' : St} (h : Served s) (htr : Tr s s') : Served s' := by
  intro t i hi
  rcases shape_tr htr with ⟨e1, e2⟩ | ⟨e1, e2⟩ | ⟨e1, e2⟩
  · rw [e1] at hi; rw [e2]; exact h t i hi
  · rw [e1] at hi; rw [e2]
    rw [List.getElem?_append] at hi
    split at hi
    · exact h t i hi
    · rw [List.getElem?_singleton] at hi
      split at hi <;> simp at hi
  · rw [e1] at hi; rw [e2]
    rw [List.getElem?_append] at hi
    split at hi
    · have := h t i hi
      rw [List.getElem?_append_left (lt_of_get this)]; exact this
    · rename_i hlt
      rw [List.getElem?_singleton] at hi
      split at hi
      · rename_i h0
        simp only [Option.some.injEq] at hi
        subst hi
        rw [List.length_map] at hlt h0
        rw [List.getElem?_append_right (by simp)]
        simp
        omega
      · simp at hi

theorem served_reach : ∀ s, Reachable s → Served s :=
  reach_induction (by intro t i h; simp [init] at h) fun _ _ hb h => served_tr hb h

/-- **C121** fails when a third thread destroys queue `b` while `b`'s thread is blocked on `a`'s full queue and `a`'s thread waits for `b` to end: destroying wakes up only those who wait for
the destroyer's own queue, so that as long as `a`'s thread does nothing (it neither ends a function nor destroys a queue) and the condition variable does not wake up by itself, `b`'s call
does not return, whatever the other threads do. -/
theorem C121_third_party (acts0 acts : List Act) (s s' : St) (h0 : run init acts0 = some s) (a tb : Nat) (qa : Q) (th : Thr) (fo : Fo)
    (hqa : s.qs[a]? = some qa) (hth : s.thr[tb]? = some th) (ho : th.op = .asleep a fo)
    (hx : ∀ x ∈ acts, mayRelease a qa.thr tb x = false) (hr : run s acts = some s') : s'.thr[tb]? = some th := by
  have key : ∀ (acts : List Act) (s : St), Reachable s → (s.qs.map (·.thr))[a]? = some qa.thr → s.thr[tb]? = some th →
      (∀ x ∈ acts, mayRelease a qa.thr tb x = false) → run s acts = some s' → s'.thr[tb]? = some th := by
    intro acts
    induction acts with
    | nil => intro s _ _ h _ hr; simp [run] at hr; subst hr; exact h
    | cons x xs ih =>
      intro s hre hq h hx hr
      simp only [run] at hr
      split at hr
      · rename_i s1 h1
        refine ih s1 ?_ ?_ (asleep_step h ho ?_ (hx x (List.mem_cons_self ..)) h1) (fun y hy => hx y (List.mem_cons_of_mem _ hy)) hr
        · obtain ⟨as, ha⟩ := hre
          exact ⟨as ++ [x], by rw [run_append ha]; simp [run, h1]⟩
        · rcases shape_tr (step_tr h1) with ⟨_, e⟩ | ⟨_, e⟩ | ⟨_, e⟩ <;> rw [e]
          · exact hq
          · exact hq
          · rw [List.getElem?_append_left (lt_of_get hq)]; exact hq
        · intro t y hy hya
          have := served_reach s hre t a (by rw [List.getElem?_map, hy]; simp [hya])
          rw [this] at hq
          exact Option.some.inj hq
      · simp at hr
  exact key acts s ⟨acts0, h0⟩ (by rw [List.getElem?_map, hqa]; rfl) hth hx hr

/-! ### Capacity -/

/-- **C40**: a queue is created for exactly the capacities from 1 to 1000000. -/
theorem C40_capacity (s : St) (m : Nat) (nb : Bool) :
    ∃ s', step s (.create m nb) = some s' ∧ if 1 ≤ m ∧ m ≤ 1000000 then
        s'.qs.length = s.qs.length + 1 ∧ ∃ q, s'.qs[s.qs.length]? = some q ∧ q.max = m ∧ q.nonblock = nb ∧ q.pend = [] ∧ q.count = 0
      else s' = s := by
  refine ⟨doCreate s m nb, rfl, ?_⟩
  unfold doCreate mpqMaxSize
  split
  · rw [if_neg (by omega)]
    refine ⟨by simp, _, by simp only; rw [List.getElem?_append_right (Nat.le_refl _)]; simp; rfl, rfl, rfl, rfl, rfl⟩
  · rw [if_pos (by omega)]

/-- **C40**: so every queue of a history has such a capacity. -/
theorem C40_capacity_range (s : St) (h : Reachable s) (i : Nat) (q : Q) (hq : s.qs[i]? = some q) : 1 ≤ q.max ∧ q.max ≤ 1000000 := by
  have := reach_induction (P := fun s => ∀ q ∈ s.qs, 1 ≤ q.max ∧ q.max ≤ 1000000) (by simp [init]) (fun s s' hb htr => by
    have set : ∀ (l : List Q), (∀ q ∈ l, 1 ≤ q.max ∧ q.max ≤ 1000000) → ∀ (qi : Nat) (x y : Q), l[qi]? = some x → y.max = x.max → ∀ q ∈ l.set qi y, 1 ≤ q.max ∧ q.max ≤ 1000000 := by
      intro l hl qi x y hx e q hq
      rcases List.mem_or_eq_of_mem_set hq with h | rfl
      · exact hl q h
      · rw [e]; exact hl x (List.mem_of_getElem? hx)
    cases htr with
    | create m nb hm hm2 =>
      intro q hq
      rcases List.mem_append.1 hq with h | h
      · exact hb q h
      · simp only [List.mem_singleton] at h
        subst h
        exact ⟨hm, hm2⟩
    | startGot t' qi x q fo op hx _ hq => exact set _ hb _ _ _ hq rfl
    | addOk t' qi x q fo hx _ hq => exact set _ hb _ _ _ hq rfl
    | put t' qi x q fo rc hx _ hq => exact set _ hb _ _ _ hq rfl
    | dgot t' qi x q hx _ hq => exact set _ hb _ _ _ hq rfl
    | dset t' qi x q hx _ hq => exact set _ hb _ _ _ hq rfl
    | dput t' qi x q hx _ hq => exact set _ hb _ _ _ hq rfl
    | own qi x y th es hx _ _ _ hk => exact set _ hb _ _ _ hx hk.2.1
    | doneQ qi d x dq th fo c hx ht' ho hl hp hd hdq hdi hc =>
      refine set _ (set s.qs hb qi x { x with phase := .fin fo } hx rfl) d (if d = qi then { x with phase := .fin fo } else dq) _ ?_ ?_
      · by_cases e : d = qi
        · subst e; simp [lt_of_get hx]
        · rw [List.getElem?_set_ne (fun h => e h.symm), if_neg e]; exact hdq
      · split <;> rfl
    | fin qi q x fo thr' bad' hq => exact set _ hb _ _ _ hq rfl
    | sig qi q x thr' hq => exact set _ hb _ _ _ hq rfl
    | _ => exact hb) s h
  exact this q (List.mem_of_getElem? hq)

/-! ### Concrete runs -/

/-- Queue 0 (blocking, one place) is full; a function on queue 1 is blocked on it; then a function on queue 0 destroys queue 1. Belongs to the model of kernel/mpq.c:1639-1691. -/
def escTrace : List Act :=
  [.create 1 false, .create 1 false, .spawn, .start 2 0 (.queue none) (.argv 0), .add 2, .put 2, .take 0, .invoke 0 .obj,
   .start 1 0 (.queue none) (.argv 0), .add 1, .destroy 0 1, .dset 0]

example : (run init escTrace).any (fun s => (s.thr[0]?.map (fun th => (th.this, th.op))) == some (some 0, .dterm 1) && (s.qs[1]?.map (·.term)) == some true &&
    (s.thr[1]?.map (fun th => (th.this, th.op))) == some (some 1, .asleep 0 ⟨1, false, none, none, false⟩)) = true := by decide +kernel

/-- The blocked call then returns EINTR although queue 0 is still full. -/
example : (run init (escTrace ++ [.dput 0, .add 1, .put 1])).any (fun s => s.log.contains (.result 1 0 1 false .eintr) && (s.qs[0]?.map (·.count)) == some 1) = true := by
  decide +kernel

/-- The same with a third thread destroying queue 1: its thread stays asleep. Belongs to the model of kernel/mpq.c:1639-1691. -/
def thirdTrace : List Act :=
  [.create 1 false, .create 1 false, .spawn, .start 2 0 (.queue none) (.argv 0), .add 2, .put 2, .take 0, .invoke 0 .obj,
   .start 1 0 (.queue none) (.argv 0), .add 1, .destroy 2 1, .dset 2, .dput 2]

theorem C121_third_party_reached : ∃ s qa qb th fo, run init thirdTrace = some s ∧ s.qs[0]? = some qa ∧ s.qs[1]? = some qb ∧ qb.term = true ∧ qb.thr = 1 ∧
    s.thr[1]? = some th ∧ th.op = .asleep 0 fo ∧ qa.thr = 0 := by
  exact ⟨_, _, _, _, _, rfl, rfl, rfl, rfl, rfl, rfl, rfl, rfl⟩

end Verif.Mpq
