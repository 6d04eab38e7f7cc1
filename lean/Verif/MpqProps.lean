import Verif.MpqCalls

/-!
# Properties of the multi-producer queues (C38–C42, C44, C46, C98, C99)

Every theorem quantifies over `Reachable s`: any number of threads and queues and any
schedule of their steps.  The statements speak about the log of observable events
(`Ev`), and use the projections `queuedOn`, `invokedOn`, `returnedOn`, `finishedOn`
(the sub-sequence of the events of one kind at one queue) and `countP`.
-/

namespace Verif.Mpq

/-! ### Specification vocabulary -/

/-- The number of times the function (`c = false`) or the completion (`c = true`) of call `n` was invoked
by a queue from its list. -/
def timesInvoked (n : Nat) (c : Bool) (log : List Ev) : Nat :=
  log.countP fun e => match e with | .invoked _ n' c' _ _ => n' == n && c' == c | _ => false

def timesQueued (n : Nat) (c : Bool) (log : List Ev) : Nat :=
  log.countP fun e => match e with | .queued _ n' c' => n' == n && c' == c | _ => false

/-- The number of times call `n` ran its function inline. -/
def timesInlined (n : Nat) (log : List Ev) : Nat :=
  log.countP fun e => match e with | .inlined _ n' => n' == n | _ => false

/-- The number of times the completion of call `n` was run free-only by the queue that ran the function. -/
def timesLocal (n : Nat) (log : List Ev) : Nat :=
  log.countP fun e => match e with | .localFree _ n' => n' == n | _ => false

/-- Functions (not completions) accepted by queue `i`. -/
def accepted (i : Nat) (log : List Ev) : Nat :=
  log.countP fun e => match e with | .queued q _ false => q == i | _ => false

/-- Functions (not completions) queue `i` has invoked and let go. -/
def retired (i : Nat) (log : List Ev) : Nat :=
  log.countP fun e => match e with | .finished q _ false => q == i | _ => false

theorem tot_inv (n : Nat) (c : Bool) (log : List Ev) : tot (evInv n c) log = timesInvoked n c log :=
  tot_countP _ _ (fun a => by cases a <;> rfl) log
theorem tot_qd (n : Nat) (c : Bool) (log : List Ev) : tot (evQueued n c) log = timesQueued n c log :=
  tot_countP _ _ (fun a => by cases a <;> rfl) log
theorem tot_inl (n : Nat) (log : List Ev) : tot (evInl n) log = timesInlined n log :=
  tot_countP _ _ (fun a => by cases a <;> rfl) log
theorem tot_loc (n : Nat) (log : List Ev) : tot (evLocal n) log = timesLocal n log :=
  tot_countP _ _ (fun a => by cases a <;> rfl) log

theorem mem_queuedOn_iff {i : Nat} {log : List Ev} {n : Nat} {c : Bool} : (n, c) ∈ queuedOn i log ↔ Ev.queued i n c ∈ log := by
  refine ⟨mem_queuedOn, fun h => ?_⟩
  simp only [queuedOn, List.mem_filterMap]
  exact ⟨_, h, by simp⟩

theorem tot_mono {α : Type} {v w : α → Nat} (h : ∀ a, v a ≤ w a) (l : List α) : tot v l ≤ tot w l := by
  induction l with
  | nil => exact Nat.le_refl _
  | cons a as ih => rw [tot_cons, tot_cons]; have := h a; omega

theorem retDone_le (n : Nat) (log : List Ev) : tot (evRetDone n) log ≤ tot (evRet n false) log := by
  apply tot_mono
  intro e
  unfold evRetDone
  split
  · simp [evRet, b2n]
  · omega

/-! ### C38: first in, first out -/

/-- C38: what a queue invokes is, in order, a prefix of what was added to it. -/
theorem C38_fifo (s : St) (h : Reachable s) (i : Nat) :
    (invokedOn i s.log).map (fun x => (x.1, x.2.1)) <+: queuedOn i s.log := by
  have hg := LG_reach s h
  by_cases hi : i < s.qs.length
  · have := (hg.q i s.qs[i] (by simp [hi])).qd
    rw [this]
    exact ⟨_, by simp only [List.append_assoc]; rfl⟩
  · obtain ⟨h1, h2, _, _⟩ := hg.e i (by omega)
    rw [h1, h2]; simp

theorem prefix_of_not_mem {α : Type} {X Y A B : List α} {b : α} (h : X ++ Y = A ++ b :: B) (hb : b ∉ X) : ∃ Z, A = X ++ Z := by
  induction X generalizing A with
  | nil => exact ⟨A, rfl⟩
  | cons x xs ih =>
    cases A with
    | nil => simp at h; simp [h.1] at hb
    | cons a as =>
      simp at h
      obtain ⟨rfl, h⟩ := h
      obtain ⟨Z, hZ⟩ := ih h (fun hm => hb (List.mem_cons_of_mem _ hm))
      exact ⟨Z, by simp [hZ]⟩

/-- C38, as the callers see it: if a queueing call returned success before another call on the same
queue was made, then the second function is not invoked before the first. -/
theorem C38_call_order (s : St) (h : Reachable s) (q n1 n2 t1 t2 : Nat) (sy2 : Bool) (d2 : Option Nat) (l1 l2 m1 m2 : List Ev)
    (md : Mode) (dd : Option Nat)
    (hcall : s.log = l1 ++ .called t2 q n2 sy2 d2 :: l2) (hres : Ev.result t1 q n1 false .ok ∈ l1)
    (hinv : s.log = m1 ++ .invoked q n2 false md dd :: m2) :
    ∃ m' d', Ev.invoked q n1 false m' d' ∈ m1 := by
  have hc := (Cause_reach s h).2.2
  have ha := (Asked_reach s h).2
  have hu := Un_reach s h
  obtain ⟨a, b, hab⟩ := List.append_of_mem hres
  have hq1 : Ev.queued q n1 false ∈ l1 := by
    have := hc a (.result t1 q n1 false .ok) (b ++ .called t2 q n2 sy2 d2 :: l2) (by rw [hcall, hab]; simp)
    simp only [Cause] at this
    rw [hab]; simp [this]
  have hq2 : Ev.queued q n2 false ∉ l1 := by
    intro hm
    obtain ⟨u, v, huv⟩ := List.append_of_mem hm
    have := ha u (.queued q n2 false) (v ++ .called t2 q n2 sy2 d2 :: l2) (by rw [hcall, huv]; simp)
    simp only [Asked] at this
    obtain ⟨t, sy, d, hcl⟩ := this
    exact called_pos (hu.one n2) hcall t q sy d (by rw [huv]; simp [hcl])
  obtain ⟨C, hC⟩ := C38_fifo s h q
  have e1 : queuedOn q s.log = queuedOn q l1 ++ queuedOn q (.called t2 q n2 sy2 d2 :: l2) := by rw [hcall, queuedOn_append]
  have e2 : (invokedOn q s.log).map (fun x => (x.1, x.2.1)) =
      (invokedOn q m1).map (fun x => (x.1, x.2.1)) ++ (n2, false) :: (invokedOn q m2).map (fun x => (x.1, x.2.1)) := by
    rw [hinv, invokedOn_append]
    simp [invokedOn]
  rw [e1, e2] at hC
  have hX : (n2, false) ∉ queuedOn q l1 := by rw [mem_queuedOn_iff]; exact hq2
  obtain ⟨Z, hZ⟩ := prefix_of_not_mem (A := (invokedOn q m1).map (fun x => (x.1, x.2.1)))
    (B := (invokedOn q m2).map (fun x => (x.1, x.2.1)) ++ C) (by rw [← hC]; simp) hX
  have : (n1, false) ∈ (invokedOn q m1).map (fun x => (x.1, x.2.1)) := by
    rw [hZ]; apply List.mem_append_left; rw [mem_queuedOn_iff]; exact hq1
  obtain ⟨⟨a1, a2, a3, a4⟩, hx, he⟩ := List.mem_map.1 this
  simp at he
  obtain ⟨rfl, rfl⟩ := he
  exact ⟨a3, a4, mem_invokedOn hx⟩

/-! ### C39: exactly once -/

/-- C39: no function (or completion) is invoked twice, whether from a list or inline. -/
theorem C39_at_most_once (s : St) (h : Reachable s) (n : Nat) :
    timesInvoked n false s.log + timesInlined n s.log ≤ 1 ∧ timesInvoked n true s.log ≤ 1 := by
  have hb := Base_reach s h
  have h1 := hb.k.one n
  have h2 := hb.k.inv n false
  have h3 := queued_le_one hb n true
  have h4 := hb.k.inv n true
  rw [← tot_inv, ← tot_inv, ← tot_inl]
  omega

/-- C39: a call that reported an error leaves nothing behind: its function is never added to a list,
never invoked and never run inline, and it has no completion. -/
theorem C39_refused (s : St) (h : Reachable s) (t q n : Nat) (sy : Bool) (rc : Rc) (hr : Ev.result t q n sy rc ∈ s.log) (hrc : rc ≠ .ok) :
    timesQueued n false s.log = 0 ∧ timesInvoked n false s.log = 0 ∧ timesInlined n s.log = 0 ∧
    timesInvoked n true s.log = 0 ∧ timesLocal n s.log = 0 := by
  have hb := Base_reach s h
  have h0 := tot_mem_le (evFail n) hr
  have h1 := hb.k.one n
  have h2 := hb.k.inv n false
  have h4 := hb.k.inv n true
  have h5 := hb.k.dn n
  have h6 := hb.k.ret n false
  have h7 := retDone_le n s.log
  simp [evFail, b2n, hrc] at h0
  rw [← tot_inv, ← tot_inl, ← tot_qd, ← tot_inv, ← tot_loc]
  omega

/-- C39: a queueing call that reported success put its function on the queue, exactly once; and a
function on the queue's list is either still waiting there or has been invoked, exactly once. -/
theorem C39_accepted (s : St) (h : Reachable s) (t q n : Nat) (hr : Ev.result t q n false .ok ∈ s.log) :
    (n, false) ∈ queuedOn q s.log ∧ timesQueued n false s.log = 1 := by
  obtain ⟨a, b, hab⟩ := List.append_of_mem hr
  have := (Cause_reach s h).2.2 a _ b hab
  simp only [Cause] at this
  have hm : Ev.queued q n false ∈ s.log := by rw [hab]; simp [this]
  refine ⟨mem_queuedOn_iff.2 hm, ?_⟩
  have h1 := queued_le_one (Base_reach s h) n false
  have h2 := tot_mem_le (evQueued n false) hm
  rw [← tot_qd]
  simp [evQueued, b2n] at h2
  omega

/-- C39: when a queue is freed, everything it ever accepted has been invoked, exactly once. -/
theorem C39_freed (s : St) (h : Reachable s) (i : Nat) (q : Q) (hq : s.qs[i]? = some q) (hd : q.stage = .dead) (n : Nat) (c : Bool)
    (hn : (n, c) ∈ queuedOn i s.log) : timesInvoked n c s.log = 1 := by
  have hb := Base_reach s h
  have hu := hb.u.st i q hq
  have h1 := (hb.g.q i q hq).qd
  have hp := (hu.2.2.1 (Or.inr hd))
  rw [hp.1, hu.2.2.2 hp.2] at h1
  simp at h1
  rw [h1] at hn
  obtain ⟨⟨a1, a2, a3, a4⟩, hx, he⟩ := List.mem_map.1 hn
  simp [tag] at he
  obtain ⟨rfl, rfl⟩ := he
  have hm := tot_mem_le (evInv a1 a2) (mem_invokedOn hx)
  have h3 := queued_le_one hb a1 a2
  have h4 := hb.k.inv a1 a2
  rw [← tot_inv]
  simp [evInv, b2n] at hm
  omega

/-- The thread of queue `i` is not inside a call it made itself. -/
def QueueThreadFree (s : St) (i : Nat) : Prop :=
  ∃ q th, s.qs[i]? = some q ∧ s.thr[q.thr]? = some th ∧ th.op = .idle ∧ th.inl = []

/-- C39, progress: from every reachable state, anything added to a queue gets invoked by steps of the
queue's own thread alone, provided that thread is not blocked inside a call of its own. -/
theorem C39_progress (s : St) (h : Reachable s) (i : Nat) (q : Q) (hq : s.qs[i]? = some q) (hf : QueueThreadFree s i)
    (n : Nat) (c : Bool) (hn : (n, c) ∈ queuedOn i s.log) :
    ∃ acts s', (∀ a ∈ acts, ownAct i q.thr a = true) ∧ run s acts = some s' ∧ timesInvoked n c s'.log = 1 := by
  have key : ∃ s', Go i q.thr s s' ∧ ∃ m d, Ev.invoked i n c m d ∈ s'.log := by
    obtain ⟨q', th, hq', hth, ho, hl⟩ := hf
    have : q' = q := by rw [hq] at hq'; cases hq'; rfl
    subst this
    have hb := Base_reach s h
    have h1 := (hb.g.q i q' hq).qd
    rw [h1] at hn
    simp only [List.mem_append, or_assoc] at hn
    rcases hn with hn | hn
    · obtain ⟨⟨a1, a2, a3, a4⟩, hx, he⟩ := List.mem_map.1 hn
      simp [tag] at he
      obtain ⟨rfl, rfl⟩ := he
      exact ⟨s, Go.refl _ _ _, a3, a4, mem_invokedOn hx⟩
    · have : ∃ x ∈ q'.batch ++ q'.pend, ftag x = (n, c) := by
        rcases hn with hn | hn <;> obtain ⟨x, hx, he⟩ := List.mem_map.1 hn
        · exact ⟨x, List.mem_append_left _ hx, he⟩
        · exact ⟨x, List.mem_append_right _ hx, he⟩
      obtain ⟨x, hx, he⟩ := this
      obtain ⟨s', q2, hg, _, _, hp⟩ := reach_pend (hb.u.st i q' hq) ⟨hq, th, hth, ho, hl⟩ hx
      simp [ftag] at he
      obtain ⟨rfl, rfl⟩ := he
      exact ⟨s', hg, hp⟩
  obtain ⟨s', hg, m, d, hm⟩ := key
  have hb := Base_reach s' (hg.reach h)
  obtain ⟨acts, h1, h2⟩ := hg
  refine ⟨acts, s', h1, h2, ?_⟩
  have hm := tot_mem_le (evInv n c) hm
  have h3 := queued_le_one hb n c
  have h4 := hb.k.inv n c
  rw [← tot_inv]
  simp [evInv, b2n] at hm
  omega

/-! ### C40: the bound -/

theorem accepted_eq (i : Nat) (log : List Ev) : accepted i log = (queuedOn i log).countP fun x => !x.2 := by
  unfold accepted queuedOn
  rw [List.countP_filterMap]
  congr 1
  funext e
  cases e <;> simp
  rename_i q n c
  by_cases hq : q = i <;> cases c <;> simp [hq]

theorem retired_eq (i : Nat) (log : List Ev) : retired i log = (finishedOn i log).countP fun x => !x.2 := by
  unfold retired finishedOn
  rw [List.countP_filterMap]
  congr 1
  funext e
  cases e <;> simp
  rename_i q n c
  by_cases hq : q = i <;> cases c <;> simp [hq]

/-- C40: a queue created with maximum `q.max` never has more than that many functions accepted and not
yet retired (internal completions are not counted). -/
theorem C40_bound (s : St) (h : Reachable s) (i : Nat) (q : Q) (hq : s.qs[i]? = some q) :
    accepted i s.log ≤ retired i s.log + q.max := by
  have hb := Base_reach s h
  have hl := hb.g.q i q hq
  rw [accepted_eq, retired_eq, hl.qd]
  have e1 : (invokedOn i s.log).map tag = finishedOn i s.log ++ afterRun q.phase ++ (running q.phase).map tag := by
    rw [hl.iv, List.map_append, hl.rt]
  rw [e1]
  simp only [List.countP_append]
  have hw : ∀ l : List Fo, (∀ fo ∈ l, foWF fo) → (l.map ftag).countP (fun x => !x.2) = regs l := by
    intro l
    induction l with
    | nil => intro _; rfl
    | cons a as ih =>
      intro hw
      simp only [List.map_cons, List.countP_cons, regs]
      rw [ih (fun fo hf => hw fo (List.mem_cons_of_mem _ hf))]
      have := hw a (by simp)
      unfold regs ftag
      congr 1
      rcases this with ⟨w1, w2⟩
      cases hc : a.compl
      · simp [w2 hc]
      · simp [w1 hc]
  have hbd := hl.bd
  have hwq := hb.w.q i q hq
  unfold Q.outstanding regs at hbd
  simp only [List.countP_append] at hbd
  have h1 := hw q.batch (fun fo hf => hwq fo (by simp [Q.outstanding, hf]))
  have h2 := hw q.pend (fun fo hf => hwq fo (by simp [Q.outstanding, hf]))
  have h3 : (afterRun q.phase).countP (fun x => !x.2) + ((running q.phase).map tag).countP (fun x => !x.2) = regs (curFo q.phase) := by
    have h4 := hw (curFo q.phase) (fun fo hf => hwq fo (by simp [Q.outstanding, hf]))
    rw [← h4]
    cases q.phase <;> simp [afterRun, running, curFo, tag, full, ftag]
  unfold regs at h1 h2 h3
  omega

/-- C40: the configuration of a queue never changes. -/
theorem C40_config {s s' : St} {a : Act} (h : step s a = some s') (i : Nat) (q : Q) (hq : s.qs[i]? = some q) :
    ∃ q', s'.qs[i]? = some q' ∧ q'.max = q.max ∧ q'.nonblock = q.nonblock := by
  have ht := step_tr h
  have keep : ∀ (qi : Nat) (x y : Q), s.qs[qi]? = some x → y.max = x.max → y.nonblock = x.nonblock →
      ∃ q', (s.qs.set qi y)[i]? = some q' ∧ q'.max = q.max ∧ q'.nonblock = q.nonblock := by
    intro qi x y hx h1 h2
    by_cases hi : qi = i
    · subst hi
      rw [hq] at hx; cases hx
      exact ⟨y, by simp [lt_of_get hq], h1, h2⟩
    · exact ⟨q, by rw [List.getElem?_set_ne hi]; exact hq, rfl, rfl⟩
  cases ht with
  | skip => exact ⟨q, hq, rfl, rfl⟩
  | spawn => exact ⟨q, hq, rfl, rfl⟩
  | create m nb hm => exact ⟨q, by simp only; rw [List.getElem?_append_left (lt_of_get hq)]; exact hq, rfl, rfl⟩
  | startErr => exact ⟨q, hq, rfl, rfl⟩
  | startInl => exact ⟨q, hq, rfl, rfl⟩
  | startGot t qi th x fo op _ _ hx => exact keep qi x _ hx rfl rfl
  | addOk t qi th x fo _ _ hx => exact keep qi x _ hx rfl rfl
  | addErr => exact ⟨q, hq, rfl, rfl⟩
  | addSleep => exact ⟨q, hq, rfl, rfl⟩
  | wake => exact ⟨q, hq, rfl, rfl⟩
  | syncRet => exact ⟨q, hq, rfl, rfl⟩
  | put t qi th x fo rc _ _ hx => exact keep qi x _ hx rfl rfl
  | inlRet => exact ⟨q, hq, rfl, rfl⟩
  | dgot t qi th x _ _ hx => exact keep qi x _ hx rfl rfl
  | dset t qi th x _ _ hx => exact keep qi x _ hx rfl rfl
  | dput t qi th x _ _ hx => exact keep qi x _ hx rfl rfl
  | own qi x y th es hx _ _ _ hk => exact keep qi x y hx hk.2.1 hk.2.2.1
  | doneQ qi d x dq th fo c hx ht' ho hl hp hd hdq hdi hc =>
    simp only
    by_cases hi : d = i
    · subst hi
      rw [hq] at hdq; cases hdq
      rw [List.getElem?_set_self (by simp [lt_of_get hq])]
      refine ⟨_, rfl, ?_⟩
      split
      · rename_i he; subst he; rw [hq] at hx; cases hx; exact ⟨rfl, rfl⟩
      · exact ⟨rfl, rfl⟩
    · rw [List.getElem?_set_ne hi]
      exact keep qi x _ hx rfl rfl
  | fin qi x th fo thr' bad' hx => exact keep qi x _ hx rfl rfl
  | sig qi x th thr' hx => exact keep qi x _ hx rfl rfl

/-- C40: a queueing call to a full non-blocking queue reports EAGAIN and leaves everything else as it was. -/
theorem C40_full (s : St) (t qi : Nat) (th : Thr) (q : Q) (d : Option Nat) (a : Args)
    (ht : s.thr[t]? = some th) (hidle : th.op = .idle) (hal : s.alive th = true) (hq : s.qs[qi]? = some q) (hin : q.installed = true)
    (hnb : q.nonblock = true) (hfull : q.max ≤ q.count) (harg : argsErr a = none)
    (hperm : s.exitingThis th = true → d.isSome → d ≠ th.this) :
    run s [.start t qi (.queue d) a, .add t, .put t] =
      some { s with next := s.next + 1, log := s.log ++ [.called t qi s.next false d, .result t qi s.next false .eagain] } := by
  have hfind : s.find qi = some q := by simp [St.find, hq, hin]
  have hth2 : th = { th with op := .idle } := by rw [← hidle]
  let fo : Fo := { n := s.next, compl := false, sync := none, done := d, noFail := false }
  have e1 : step s (.start t qi (.queue d) a) =
      some { s with next := s.next + 1, qs := s.qs.set qi { q with usage := q.usage + 1 }, thr := s.thr.set t { th with op := .got qi fo },
                    log := s.log ++ [.called t qi s.next false d] } := by
    have hfind' : ({ qs := s.qs, thr := s.thr, next := s.next + 1, log := s.log ++ [Ev.called t qi s.next false d], bad := s.bad } : St).find qi = some q := hfind
    simp [step, doStart, ht, hidle, hal, Kind.sync, Kind.done, Kind.treatThis, St.emit, hfind', harg, St.setQ, St.setT, fo]
  let s1 : St := { s with next := s.next + 1, qs := s.qs.set qi { q with usage := q.usage + 1 }, thr := s.thr.set t { th with op := .got qi fo },
                          log := s.log ++ [.called t qi s.next false d] }
  have g1 : s1.thr[t]? = some { th with op := .got qi fo } := List.getElem?_set_self (lt_of_get ht)
  have g2 : s1.qs[qi]? = some { q with usage := q.usage + 1 } := List.getElem?_set_self (lt_of_get hq)
  have hex : s1.exitingThis { th with op := .got qi fo } = s.exitingThis th := by
    unfold St.exitingThis
    simp only
    cases th.this with
    | none => rfl
    | some j =>
      simp only
      by_cases hj : qi = j
      · subst hj; rw [g2, hq]
      · have : s1.qs[j]? = s.qs[j]? := List.getElem?_set_ne hj
        rw [this]
  have e2 : step s1 (.add t) = some { s1 with thr := s1.thr.set t { th with op := .put qi fo .eagain } } := by
    have hnot : ¬ (s1.exitingThis { th with op := .got qi fo } = true ∧ fo.done.isSome = true ∧ fo.done = th.this) := by
      rintro ⟨h1, h2, h3⟩
      rw [hex] at h1
      exact hperm h1 h2 h3
    simp only [step, doAdd, g1, g2, Option.bind_eq_bind, Option.bind_some]
    rw [if_neg hnot]
    have hc : ¬ (fo.noFail = true ∨ q.count < q.max) := by simp [fo]; omega
    simp only [lockedAdd, if_neg hc, hnb, if_true, St.setT]
  let s2 : St := { s1 with thr := s1.thr.set t { th with op := .put qi fo .eagain } }
  have g3 : s2.thr[t]? = some { th with op := .put qi fo .eagain } := List.getElem?_set_self (by simp [s1, lt_of_get ht])
  have g4 : s2.qs[qi]? = some { q with usage := q.usage + 1 } := g2
  simp only [run, e1]
  rw [show step _ (.add t) = some s2 from e2]
  simp only [step, doPut, g3, g4, Option.bind_eq_bind, Option.bind_some]
  simp only [fo, St.setQ, St.setT, St.emit, s2, s1, List.set_set, Nat.add_sub_cancel]
  rw [← hth2, set_self hq, set_self ht]
  simp

/-- C40: with room in the queue, the same call succeeds. -/
theorem C40_room (s : St) (t qi : Nat) (th : Thr) (q : Q) (d : Option Nat) (a : Args)
    (ht : s.thr[t]? = some th) (hidle : th.op = .idle) (hal : s.alive th = true) (hq : s.qs[qi]? = some q) (hin : q.installed = true)
    (hroom : q.count < q.max) (harg : argsErr a = none)
    (hperm : s.exitingThis th = true → d.isSome → d ≠ th.this) :
    ∃ s', run s [.start t qi (.queue d) a, .add t, .put t] = some s' ∧
      s'.log = s.log ++ [.called t qi s.next false d, .queued qi s.next false, .result t qi s.next false .ok] := by
  have hfind : s.find qi = some q := by simp [St.find, hq, hin]
  let fo : Fo := { n := s.next, compl := false, sync := none, done := d, noFail := false }
  have e1 : step s (.start t qi (.queue d) a) =
      some { s with next := s.next + 1, qs := s.qs.set qi { q with usage := q.usage + 1 }, thr := s.thr.set t { th with op := .got qi fo },
                    log := s.log ++ [.called t qi s.next false d] } := by
    have hfind' : ({ qs := s.qs, thr := s.thr, next := s.next + 1, log := s.log ++ [Ev.called t qi s.next false d], bad := s.bad } : St).find qi = some q := hfind
    simp [step, doStart, ht, hidle, hal, Kind.sync, Kind.done, Kind.treatThis, St.emit, hfind', harg, St.setQ, St.setT, fo]
  let s1 : St := { s with next := s.next + 1, qs := s.qs.set qi { q with usage := q.usage + 1 }, thr := s.thr.set t { th with op := .got qi fo },
                          log := s.log ++ [.called t qi s.next false d] }
  have g1 : s1.thr[t]? = some { th with op := .got qi fo } := List.getElem?_set_self (lt_of_get ht)
  have g2 : s1.qs[qi]? = some { q with usage := q.usage + 1 } := List.getElem?_set_self (lt_of_get hq)
  have hex : s1.exitingThis { th with op := .got qi fo } = s.exitingThis th := by
    unfold St.exitingThis
    simp only
    cases th.this with
    | none => rfl
    | some j =>
      simp only
      by_cases hj : qi = j
      · subst hj; rw [g2, hq]
      · have : s1.qs[j]? = s.qs[j]? := List.getElem?_set_ne hj
        rw [this]
  let q2 : Q := { q with usage := q.usage + 1, pend := q.pend ++ [fo], count := q.count + 1 }
  let s2 : St := { s1 with qs := s1.qs.set qi q2, thr := s1.thr.set t { th with op := .put qi fo .ok }, log := s1.log ++ [.queued qi s.next false] }
  have e2 : step s1 (.add t) = some s2 := by
    have hnot : ¬ (s1.exitingThis { th with op := .got qi fo } = true ∧ fo.done.isSome = true ∧ fo.done = th.this) := by
      rintro ⟨h1, h2, h3⟩
      rw [hex] at h1
      exact hperm h1 h2 h3
    simp only [step, doAdd, g1, g2, Option.bind_eq_bind, Option.bind_some]
    rw [if_neg hnot]
    simp [lockedAdd, hroom, St.setT, St.setQ, St.emit, s2, q2, fo]
  have g3 : s2.thr[t]? = some { th with op := .put qi fo .ok } := List.getElem?_set_self (by simp [s1, lt_of_get ht])
  have g4 : s2.qs[qi]? = some q2 := List.getElem?_set_self (by simp [s1, lt_of_get hq])
  simp only [run, e1]
  rw [show step _ (.add t) = some s2 from e2]
  simp only [step, doPut, g3, g4, Option.bind_eq_bind, Option.bind_some]
  simp [fo, St.setQ, St.setT, St.emit, s2, s1]

/-! ### C41: synchronous calls -/

/-- C41: a synchronous call that returned success did so after its function had run to its end, on the
target queue's thread or (own queue) inline. -/
theorem C41_after (s : St) (h : Reachable s) (t q n : Nat) (l1 l2 : List Ev) (hl : s.log = l1 ++ .result t q n true .ok :: l2) :
    ((∃ m d, Ev.returned q n false m d ∈ l1) ∨ Ev.inlineRet q n ∈ l1) ∧ ∃ d, Ev.called t q n true d ∈ l1 := by
  have h1 := (Cause_reach s h).2.2 l1 _ l2 hl
  have h2 := (Asked_reach s h).2 l1 _ l2 hl
  simpa only [Cause, Asked] using ⟨h1, h2⟩

/-- C41: the queue never reports completion to a caller that is not waiting for it (the
synchronisation object lives in the caller's stack frame). -/
theorem C41_frame (s : St) (h : Reachable s) : s.bad = false := (Sy_reach s h).b

/-- C41: calling on the own queue runs the function inline: nothing is queued, and when the function
returns the call returns success. -/
theorem C41_inline (s : St) (t qi : Nat) (th : Thr) (k : Kind) (hk : k = .call ∨ k = .run) (a : Args) (ht : s.thr[t]? = some th) (hidle : th.op = .idle)
    (hal : s.alive th = true) (hown : th.this = some qi) (harg : argsErr a = none) :
    ∃ s1, step s (.start t qi k a) = some s1 ∧ s1.log = s.log ++ [.called t qi s.next true none, .inlined qi s.next] ∧ s1.qs = s.qs ∧
      step s1 (.inlRet t) = some { s with next := s.next + 1, log := s.log ++ [.called t qi s.next true none, .inlined qi s.next,
        .inlineRet qi s.next, .result t qi s.next true .ok] } := by
  let s1 : St := { s with next := s.next + 1, thr := s.thr.set t { th with inl := s.next :: th.inl },
                          log := s.log ++ [.called t qi s.next true none, .inlined qi s.next] }
  have g1 : s1.thr[t]? = some { th with inl := s.next :: th.inl } := List.getElem?_set_self (lt_of_get ht)
  refine ⟨s1, ?_, rfl, rfl, ?_⟩
  · rcases hk with rfl | rfl <;>
      simp [step, doStart, ht, hidle, hal, hown, Kind.sync, Kind.done, Kind.treatThis, St.emit, harg, St.setT, s1]
  · simp only [step, doInlRet, g1, Option.bind_eq_bind, Option.bind_some, hidle, hown]
    have : ({ this := some qi, op := Op.idle, inl := th.inl } : Thr) = th := by cases th; simp_all
    simp only [St.setT, St.emit, s1, List.set_set]
    rw [this, set_self ht]
    simp

/-! ### C42: completions -/

/-- C42: a call has at most one completion, whichever way it is delivered. -/
theorem C42_once (s : St) (h : Reachable s) (n : Nat) :
    timesQueued n true s.log + timesLocal n s.log ≤ 1 ∧ timesInvoked n true s.log + timesLocal n s.log ≤ 1 := by
  have hb := Base_reach s h
  have h1 := hb.k.one n
  have h2 := hb.k.inv n false
  have h4 := hb.k.inv n true
  have h5 := hb.k.dn n
  have h6 := hb.k.ret n false
  have h7 := retDone_le n s.log
  rw [← tot_inv, ← tot_qd, ← tot_loc]
  omega

/-- C42: a completion invoked by queue `d` belongs to a call that named `d` as its completion queue, and
whose function had already run to its end with its object. -/
theorem C42_after (s : St) (h : Reachable s) (d n : Nat) (m : Mode) (dd : Option Nat) (l1 l2 : List Ev)
    (hl : s.log = l1 ++ .invoked d n true m dd :: l2) :
    ∃ t q sy, Ev.returned q n false .obj (some d) ∈ l1 ∧ Ev.called t q n sy (some d) ∈ l1 := by
  have hc := (Cause_reach s h).2.2
  have ha := (Asked_reach s h).2
  have h1 := hc l1 _ l2 hl
  simp only [Cause] at h1
  obtain ⟨a, b, hab⟩ := List.append_of_mem h1
  have h2 := hc a (.queued d n true) (b ++ .invoked d n true m dd :: l2) (by rw [hl, hab]; simp)
  simp only [Cause] at h2
  obtain ⟨q, hr⟩ := h2
  obtain ⟨a2, b2, hab2⟩ := List.append_of_mem hr
  have h3 := hc a2 (.returned q n false .obj (some d)) (b2 ++ .queued d n true :: b ++ .invoked d n true m dd :: l2) (by rw [hl, hab, hab2]; simp)
  simp only [Cause] at h3
  obtain ⟨a3, b3, hab3⟩ := List.append_of_mem h3
  have h4 := ha a3 (.invoked q n false .obj (some d)) (b3 ++ .returned q n false .obj (some d) :: b2 ++ .queued d n true :: b ++ .invoked d n true m dd :: l2)
    (by rw [hl, hab, hab2, hab3]; simp)
  simp only [Asked] at h4
  obtain ⟨t, sy, hcl⟩ := h4
  refine ⟨t, q, sy, ?_, ?_⟩
  · rw [hab]; simp [hr]
  · rw [hab, hab2, hab3]; simp [hcl]

/-- C42: no completion at all for a function that was invoked free-only. -/
theorem C42_free_only (s : St) (h : Reachable s) (q n : Nat) (d : Option Nat) (hm : Ev.invoked q n false .freeOnly d ∈ s.log) :
    timesQueued n true s.log = 0 ∧ timesLocal n s.log = 0 := by
  have hb := Base_reach s h
  have hc := (Cause_reach s h).2.2
  have hz : tot (evRetDone n) s.log = 0 := by
    rw [tot_zero]
    intro e he
    unfold evRetDone
    split
    · rename_i q' n' d'
      simp only [b2n]
      split
      · rename_i hn
        exfalso
        simp at hn; subst hn
        obtain ⟨a, b, hab⟩ := List.append_of_mem he
        have h1 := hc a _ b hab
        simp only [Cause] at h1
        have h1 : Ev.invoked q' n' false .obj (some d') ∈ s.log := by rw [hab]; simp [h1]
        have hone := queued_le_one hb n' false
        have hinv := hb.k.inv n' false
        obtain ⟨u, v, huv⟩ := List.append_of_mem hm
        rw [huv] at h1
        have hcnt : tot (evInv n' false) s.log = tot (evInv n' false) u + 1 + tot (evInv n' false) v := by
          rw [huv, tot_app', tot_cons]; simp [evInv, b2n]; omega
        simp at h1
        rcases h1 with h1 | h1
        · have := tot_mem_le (evInv n' false) h1
          simp [evInv, b2n] at this; omega
        · have := tot_mem_le (evInv n' false) h1
          simp [evInv, b2n] at this; omega
      · rfl
    · rfl
  have h5 := hb.k.dn n
  rw [← tot_qd, ← tot_loc]
  omega

/-- C42: once the queues and threads are at rest, every function that ran with its object and had a
completion queue has exactly one completion, queued to that queue or run free-only locally. -/
theorem C42_exactly_one (s : St) (h : Reachable s) (q n d : Nat) (hr : Ev.returned q n false .obj (some d) ∈ s.log)
    (hq : ∀ (i : Nat) (x : Q), s.qs[i]? = some x → ∀ fo m, x.phase ≠ .post fo m) (ht : ∀ (t : Nat) (th : Thr), s.thr[t]? = some th → th.op = .idle) :
    timesQueued n true s.log + timesLocal n s.log = 1 := by
  have hb := Base_reach s h
  have h5 := hb.k.dn n
  have h0 := tot_mem_le (evRetDone n) hr
  simp [evRetDone, b2n] at h0
  have h1 : tot (qPost n) s.qs = 0 := by
    rw [tot_zero]
    intro x hx
    obtain ⟨i, hi, rfl⟩ := List.getElem_of_mem hx
    have := hq i s.qs[i] (by simp [hi])
    unfold qPost phPost
    split
    · rename_i hp; exact absurd hp (this _ _)
    · rfl
  have h2 : tot (preT n true) s.thr = 0 := by
    rw [tot_zero]
    intro x hx
    obtain ⟨i, hi, rfl⟩ := List.getElem_of_mem hx
    have := ht i s.thr[i] (by simp [hi])
    unfold preT; rw [this]; rfl
  have h3 := (C42_once s h n).1
  rw [← tot_qd, ← tot_loc] at h3 ⊢
  omega

/-- C42: the local free-only run happens exactly when the completion queue is gone. -/
theorem C42_local (s s' : St) (qi : Nat) (q : Q) (fo : Fo) (d : Nat) (hq : s.qs[qi]? = some q) (hp : q.phase = .post fo .obj)
    (hd : fo.done = some d) (h : step s (.done qi) = some s') :
    (s.find d = none → s'.log = s.log ++ [.localFree qi fo.n]) ∧ (s.find d ≠ none → s'.log = s.log) := by
  simp only [step, doDone, ownStep, hq, Option.bind_eq_bind, Option.bind_some, hp, hd] at h
  split at h
  · simp only [if_neg (show ¬ Mode.obj = Mode.freeOnly by decide)] at h
    cases hf : s.find d with
    | none => rw [hf] at h; simp at h; subst h; simp [St.emit, St.setQ]
    | some x =>
      rw [hf] at h
      simp only at h
      split at h
      · simp at h; subst h; simp [St.setQ, St.setT]
      · simp at h
  · simp at h

/-! ### C44: destroying a queue -/

/-- C44: a queue that has been freed does not resolve any more, everything it accepted has been invoked
and has returned, and no thread is inside a call on it. -/
theorem C44_destroyed (s : St) (h : Reachable s) (i : Nat) (q : Q) (hq : s.qs[i]? = some q) (hd : q.stage = .dead) :
    s.find i = none ∧ (returnedOn i s.log).map (fun x => (x.1, x.2.1)) = queuedOn i s.log ∧
    ∀ (t : Nat) (th : Thr), s.thr[t]? = some th → opOn i th.op = 0 := by
  have hb := Base_reach s h
  have hu := hb.u.st i q hq
  have hp := hu.2.2.1 (Or.inr hd)
  have hl := hb.g.q i q hq
  refine ⟨?_, ?_, ?_⟩
  · have := hu.1 (by simp [hd])
    simp [St.find, hq, this]
  · have h1 := hl.qd
    rw [hp.1, hu.2.2.2 hp.2] at h1
    simp at h1
    have h2 := hl.iv
    rw [hp.2] at h2
    simp [running] at h2
    rw [h1, h2]; rfl
  · intro t th ht
    have h1 := hb.u.use i q hq
    rw [hu.2.1 (by simp [hd])] at h1
    have : tot (holds i) s.thr = 0 := by omega
    rw [tot_zero] at this
    exact this th (List.mem_of_getElem? ht)

/-- C44: a call on a destroyed queue's handle reports EINVAL and changes nothing. -/
theorem C44_stale (s : St) (h : Reachable s) (i : Nat) (q : Q) (hq : s.qs[i]? = some q) (hd : q.stage = .dead)
    (t : Nat) (th : Thr) (ht : s.thr[t]? = some th) (hidle : th.op = .idle) (hal : s.alive th = true) (hown : th.this ≠ some i) (k : Kind) (a : Args) :
    step s (.start t i k a) = some { s with next := s.next + 1, log := s.log ++
      [.called t i s.next (k.sync false) k.done, .result t i s.next (k.sync false) .einval] } := by
  have hf : s.find i = none := (C44_destroyed s h i q hq hd).1
  have hf' : ∀ l n, ({ qs := s.qs, thr := s.thr, next := n, log := l, bad := s.bad } : St).find i = none := fun _ _ => hf
  simp [step, doStart, ht, hidle, hal, hown, St.emit, hf']

/-- C44, progress: once a queue has been told to terminate and nobody else is inside a call on it, its own
thread alone gets it freed, whatever was still pending. -/
theorem C44_progress (s : St) (h : Reachable s) (i : Nat) (q : Q) (hq : s.qs[i]? = some q) (hf : QueueThreadFree s i)
    (hterm : q.term = true) (hnone : ∀ (t : Nat) (th : Thr), s.thr[t]? = some th → opOn i th.op = 0) :
    ∃ acts s' q', (∀ a ∈ acts, ownAct i q.thr a = true) ∧ run s acts = some s' ∧ s'.qs[i]? = some q' ∧ q'.stage = .dead := by
  obtain ⟨q0, th, hq0, hth, ho, hl⟩ := hf
  have : q0 = q := by rw [hq] at hq0; cases hq0; rfl
  subst this
  have hi : IdleQ s i q0 := ⟨hq, th, hth, ho, hl⟩
  have hz : tot (holds i) s.thr = 0 := by
    rw [tot_zero]
    intro x hx
    obtain ⟨t, ht, rfl⟩ := List.getElem_of_mem hx
    exact hnone t _ (by simp [ht])
  -- stage changes
  have f4 : ∀ {s : St} {q : Q}, IdleQ s i q → q.phase = .poll → q.stage = .fini →
      ∃ s' q', Go i q.thr s s' ∧ s'.qs[i]? = some q' ∧ q'.stage = .dead := by
    intro s q ⟨hq, th, hth, ho, hl⟩ hp hs
    refine ⟨{ s with qs := s.qs.set i { q with stage := .dead } }, { q with stage := .dead },
      Go.one (a := .free i) (by simp [ownAct]) ?_, List.getElem?_set_self (lt_of_get hq), rfl⟩
    simp [step, doFree, ownStep, hq, St.free, hth, ho, hl, hp, hs, St.setQ]
  have f3 : ∀ {s : St} {q : Q}, IdleQ s i q → q.phase = .poll → q.pend = [] → q.stage = .drain →
      ∃ s' q', Go i q.thr s s' ∧ s'.qs[i]? = some q' ∧ q'.stage = .dead := by
    intro s q ⟨hq, th, hth, ho, hl⟩ hp hpe hs
    have e : step s (.drained i) = some { s with qs := s.qs.set i { q with stage := .fini } } := by
      simp [step, doDrained, ownStep, hq, St.free, hth, ho, hl, hp, hs, hpe, St.setQ]
    obtain ⟨s2, q2, g2, h2, h3⟩ := f4 (s := { s with qs := s.qs.set i { q with stage := .fini } }) (q := { q with stage := .fini })
      ⟨List.getElem?_set_self (lt_of_get hq), th, hth, ho, hl⟩ hp rfl
    exact ⟨s2, q2, (Go.one (by simp [ownAct]) e).trans g2, h2, h3⟩
  have f2 : ∀ {s : St} {q : Q}, Reachable s → IdleQ s i q → tot (holds i) s.thr = 0 → q.phase = .poll → q.pend = [] → q.stage = .uninst →
      ∃ s' q', Go i q.thr s s' ∧ s'.qs[i]? = some q' ∧ q'.stage = .dead := by
    intro s q hr ⟨hq, th, hth, ho, hl⟩ hz hp hpe hs
    have hus := (U_reach s hr).use i q hq
    have e : step s (.seenOne i) = some { s with qs := s.qs.set i { q with stage := .drain } } := by
      have : q.usage ≤ 1 := by omega
      simp [step, doSeenOne, ownStep, hq, St.free, hth, ho, hl, hp, hs, this, St.setQ]
    obtain ⟨s2, q2, g2, h2, h3⟩ := f3 (s := { s with qs := s.qs.set i { q with stage := .drain } }) (q := { q with stage := .drain })
      ⟨List.getElem?_set_self (lt_of_get hq), th, hth, ho, hl⟩ hp hpe rfl
    exact ⟨s2, q2, (Go.one (by simp [ownAct]) e).trans g2, h2, h3⟩
  have f1 : ∀ {s : St} {q : Q}, Reachable s → IdleQ s i q → tot (holds i) s.thr = 0 → q.phase = .poll → q.pend = [] → q.stage = .exiting →
      ∃ s' q', Go i q.thr s s' ∧ s'.qs[i]? = some q' ∧ q'.stage = .dead := by
    intro s q hr ⟨hq, th, hth, ho, hl⟩ hz hp hpe hs
    have e : step s (.uninst i) = some { s with qs := s.qs.set i { q with stage := .uninst, installed := false } } := by
      simp [step, doUninst, ownStep, hq, St.free, hth, ho, hl, hp, hs, St.setQ]
    have g1 := Go.one (i := i) (tq := q.thr) (by simp [ownAct]) e
    obtain ⟨s2, q2, g2, h2, h3⟩ := f2 (g1.reach hr) (q := { q with stage := .uninst, installed := false })
      ⟨List.getElem?_set_self (lt_of_get hq), th, hth, ho, hl⟩ hz hp hpe rfl
    exact ⟨s2, q2, g1.trans g2, h2, h3⟩
  have f0 : ∀ {s : St} {q : Q}, Reachable s → IdleQ s i q → tot (holds i) s.thr = 0 → q.phase = .poll → q.pend = [] → q.stage = .live → q.term = true →
      ∃ s' q', Go i q.thr s s' ∧ s'.qs[i]? = some q' ∧ q'.stage = .dead := by
    intro s q hr ⟨hq, th, hth, ho, hl⟩ hz hp hpe hs htm
    have e : step s (.exit i) = some { s with qs := s.qs.set i { q with stage := .exiting } } := by
      simp [step, doExit, ownStep, hq, St.free, hth, ho, hl, hp, hs, htm, St.setQ]
    have g1 := Go.one (i := i) (tq := q.thr) (by simp [ownAct]) e
    obtain ⟨s2, q2, g2, h2, h3⟩ := f1 (g1.reach hr) (q := { q with stage := .exiting })
      ⟨List.getElem?_set_self (lt_of_get hq), th, hth, ho, hl⟩ hz hp hpe rfl
    exact ⟨s2, q2, g1.trans g2, h2, h3⟩
  have main : ∃ s' q', Go i q0.thr s s' ∧ s'.qs[i]? = some q' ∧ q'.stage = .dead := by
    have hst := (U_reach s h).st i q0 hq
    by_cases hdd : q0.stage = .dead
    · exact ⟨s, q0, Go.refl _ _ _, hq, hdd⟩
    by_cases hff : q0.stage = .fini
    · exact f4 hi (hst.2.2.1 (Or.inl hff)).2 hff
    obtain ⟨s1, q1, g1, i1, k1, p1, e1⟩ := to_empty hi ⟨hff, hdd⟩
    have hz1 : tot (holds i) s1.thr = 0 := by rw [k1.us]; exact hz
    have hr1 := g1.reach h
    have : ∃ s' q', Go i q1.thr s1 s' ∧ s'.qs[i]? = some q' ∧ q'.stage = .dead := by
      cases hs : q1.stage with
      | live => exact f0 hr1 i1 hz1 p1 e1 hs (k1.te.trans hterm)
      | exiting => exact f1 hr1 i1 hz1 p1 e1 hs
      | uninst => exact f2 hr1 i1 hz1 p1 e1 hs
      | drain => exact f3 i1 p1 e1 hs
      | fini => rw [k1.st] at hs; exact absurd hs hff
      | dead => rw [k1.st] at hs; exact absurd hs hdd
    obtain ⟨s2, q2, g2, h2, h3⟩ := this
    exact ⟨s2, q2, g1.trans (k1.t ▸ g2), h2, h3⟩
  obtain ⟨s', q', ⟨acts, h1, h2⟩, h3, h4⟩ := main
  exact ⟨acts, s', q', h1, h2, h3, h4⟩

/-! ### C46: argument limits -/

/-- C46: which argument lists are refused. -/
theorem C46_limits : (∀ n, argsErr (.argv n) = if n ≤ 64 then none else some .e2big) ∧
    (∀ n, argsErr (.data n) = if n ≤ 8192 then none else some .emsgsize) := by
  refine ⟨fun n => ?_, fun n => ?_⟩
  · show (if argcMax < n then some Rc.e2big else none) = _
    unfold argcMax
    by_cases h : n ≤ 64
    · rw [if_pos h, if_neg (by omega)]
    · rw [if_neg h, if_pos (by omega)]
  · show (if dataLenMax < n then some Rc.emsgsize else none) = _
    unfold dataLenMax
    by_cases h : n ≤ 8192
    · rw [if_pos h, if_neg (by omega)]
    · rw [if_neg h, if_pos (by omega)]

/-- C46: a call of any kind, on any queue, with a refused argument list queues nothing, runs nothing and
reports the error; apart from the log and the call number nothing changes. -/
theorem C46_refused (s : St) (t qi : Nat) (th : Thr) (k : Kind) (a : Args) (rc : Rc) (ht : s.thr[t]? = some th) (hidle : th.op = .idle)
    (hal : s.alive th = true) (hfind : s.find qi ≠ none) (harg : argsErr a = some rc) :
    ∃ acts, (acts = [Act.start t qi k a] ∨ acts = [Act.start t qi k a, Act.put t]) ∧
      run s acts = some { s with next := s.next + 1, log := s.log ++
        [.called t qi s.next (k.sync (th.this = some qi)) k.done, .result t qi s.next (k.sync (th.this = some qi)) rc] } := by
  by_cases hi : k.treatThis = true ∧ th.this = some qi
  · refine ⟨[Act.start t qi k a], Or.inl rfl, ?_⟩
    simp [run, step, doStart, ht, hidle, hal, hi, St.emit, harg]
  · refine ⟨[Act.start t qi k a, Act.put t], Or.inr rfl, ?_⟩
    obtain ⟨q, hf⟩ : ∃ q, s.find qi = some q := by
      cases hx : s.find qi with
      | none => exact absurd hx hfind
      | some q => exact ⟨q, rfl⟩
    obtain ⟨hq, hin⟩ := find_some hf
    have hf' : ∀ l n, ({ qs := s.qs, thr := s.thr, next := n, log := l, bad := s.bad } : St).find qi = some q := fun _ _ => hf
    let sy := k.sync (th.this = some qi)
    let fo : Fo := { n := s.next, compl := false, sync := if sy then some t else none, done := k.done, noFail := false }
    let s1 : St := { s with next := s.next + 1, qs := s.qs.set qi { q with usage := q.usage + 1 }, thr := s.thr.set t { th with op := .put qi fo rc },
                            log := s.log ++ [.called t qi s.next sy k.done] }
    have e1 : step s (.start t qi k a) = some s1 := by
      simp only [step, doStart, ht, hidle, hal, Option.bind_eq_bind, Option.bind_some, St.emit]
      simp [hi, hf', harg, St.setQ, St.setT, s1, fo, sy]
    have g1 : s1.thr[t]? = some { th with op := .put qi fo rc } := List.getElem?_set_self (lt_of_get ht)
    have g2 : s1.qs[qi]? = some { q with usage := q.usage + 1 } := List.getElem?_set_self (lt_of_get hq)
    have hth2 : th = { th with op := .idle } := by rw [← hidle]
    have hsy : fo.sync.isSome = sy := by simp only [fo]; cases sy <;> simp
    simp only [run, e1]
    simp only [step, doPut, g1, g2, Option.bind_eq_bind, Option.bind_some]
    simp only [hsy, St.setQ, St.setT, St.emit, s1, List.set_set, Nat.add_sub_cancel]
    rw [← hth2, set_self hq, set_self ht]
    simp [fo, sy]

/-! ### C98: the queue object outlives its users -/

/-- C98: as long as a thread is inside a call on a queue (having found it), or is blocked on it, the queue
is not freed, and it has not left its waiting loop for them. -/
theorem C98_users (s : St) (h : Reachable s) (t i : Nat) (th : Thr) (ht : s.thr[t]? = some th) (hu : opOn i th.op = 1) :
    ∃ q, s.qs[i]? = some q ∧ q.stage ≠ .drain ∧ q.stage ≠ .fini ∧ q.stage ≠ .dead := by
  have hb := Base_reach s h
  by_cases hi : i < s.qs.length
  · refine ⟨s.qs[i], by simp [hi], ?_⟩
    have hq : s.qs[i]? = some s.qs[i] := by simp [hi]
    have hst := hb.u.st i _ hq
    have h1 := hb.u.use i _ hq
    have h2 := tot_mem_le (holds i) (List.mem_of_getElem? ht)
    simp only [holds, hu] at h2
    refine ⟨fun e => ?_, fun e => ?_, fun e => ?_⟩
    · have := hst.2.1 (by simp [e]); omega
    · have := hst.2.1 (by simp [e]); omega
    · have := hst.2.1 (by simp [e]); omega
  · have h1 := hb.u.ran i (by omega)
    have h2 := tot_mem_le (holds i) (List.mem_of_getElem? ht)
    simp only [holds, hu] at h2
    omega

/-! ### C99: producers blocked on a full queue -/

/-- C99: while a producer sleeps because the queue was full, either the queue is still full (so its thread has
functions to retire, each with a wake-up), or a wake-up has been given to one of the blocked producers and not yet used, or is
about to be given. -/
theorem C99_no_lost_wakeup_partial (s : St) (h : Reachable s) (i t : Nat) (q : Q) (th : Thr) (fo : Fo) (hq : s.qs[i]? = some q)
    (ht : s.thr[t]? = some th) (hs : th.op = .asleep i fo) :
    q.max ≤ q.count ∨ (∃ (t' : Nat) (th' : Thr) (fo' : Fo), s.thr[t']? = some th' ∧ th'.op = .woken i fo') ∨ q.phase = .sig := by
  have hl := BL_reach s h
  have hp := tot_mem_le (sl i) (List.mem_of_getElem? ht)
  simp [sl, slOp, hs] at hp
  have h1 := hl.b i q hq (by omega)
  unfold room at h1
  by_cases hph : q.phase = .sig
  · exact Or.inr (Or.inr hph)
  · have hz : sgPh q.phase = 0 := by
      cases hc : q.phase <;> simp_all [sgPh]
    by_cases hw : tot (wk i) s.thr = 0
    · left; omega
    · right; left
      have : ∃ x ∈ s.thr, wk i x ≠ 0 := by
        apply Classical.byContradiction
        intro hc
        apply hw
        rw [tot_zero]
        intro x hx
        apply Classical.byContradiction
        intro hne
        exact hc ⟨x, hx, hne⟩
      obtain ⟨x, hx, hne⟩ := this
      obtain ⟨j, hj, rfl⟩ := List.getElem_of_mem hx
      unfold wk wkOp at hne
      split at hne
      · rename_i q' fo' hop
        simp at hne; subst hne
        exact ⟨j, _, fo', by simp [hj], hop⟩
      · simp at hne

/-- C99: a full queue with a sleeping producer has something to retire: the queue is never empty then. -/
theorem C99_not_empty_partial (s : St) (h : Reachable s) (i t : Nat) (q : Q) (th : Thr) (fo : Fo) (hq : s.qs[i]? = some q)
    (ht : s.thr[t]? = some th) (hs : th.op = .asleep i fo) :
    q.outstanding ≠ [] ∨ (∃ (t' : Nat) (th' : Thr) (fo' : Fo), s.thr[t']? = some th' ∧ th'.op = .woken i fo') ∨ q.phase = .sig := by
  rcases C99_no_lost_wakeup_partial s h i t q th fo hq ht hs with h1 | h1
  · left
    have hm := (BL_reach s h).m i q hq
    have hc := ((Base_reach s h).g.q i q hq).ct
    intro he
    rw [he] at hc; simp at hc; omega
  · exact Or.inr h1

/-- A thread blocked on its own full queue. -/
def SelfBlocked (s : St) (i t n : Nat) : Prop :=
  ∃ q th fo, s.qs[i]? = some q ∧ q.thr = t ∧ s.thr[t]? = some th ∧ (th.op = .asleep i fo ∨ th.op = .woken i fo) ∧
    fo.n = n ∧ fo.noFail = false ∧ fo.sync = none ∧ q.max ≤ q.count ∧ q.nonblock = false ∧ q.term = false ∧ th.this = some i

theorem self_blocked_tr {s s' : St} {i t n : Nat} (h : SelfBlocked s i t n) (ht : Tr s s') :
    SelfBlocked s' i t n ∨ ∃ q, s'.qs[i]? = some q ∧ q.term = true := by
  obtain ⟨q, th, fo, hq, rfl, hth, hop, hn, hnf, hsy, hfull, hnb, htm, hthis⟩ := h
  have nidle : th.op ≠ .idle := by rcases hop with h | h <;> rw [h] <;> simp
  -- another thread's slot and a queue slot are updated
  have keepT : ∀ (thr' : List Thr) (t' : Nat) (x y : Thr), s.thr[t']? = some x → x.op ≠ th.op → thr' = s.thr.set t' y →
      thr'[q.thr]? = some th := by
    intro thr' t' x y hx hne he
    subst he
    have : t' ≠ q.thr := by rintro rfl; rw [hth] at hx; cases hx; exact hne rfl
    rw [List.getElem?_set_ne this]; exact hth
  have keepQ : ∀ (qi : Nat) (x y : Q), s.qs[qi]? = some x → y.thr = x.thr → y.max = x.max → x.count ≤ y.count → y.nonblock = x.nonblock → y.term = x.term →
      ∃ q', (s.qs.set qi y)[i]? = some q' ∧ q'.thr = q.thr ∧ q'.max ≤ q'.count ∧ q'.nonblock = false ∧ q'.term = false := by
    intro qi x y hx h1 h2 h3 h4 h5
    by_cases hi : qi = i
    · subst hi
      rw [hq] at hx; cases hx
      exact ⟨y, List.getElem?_set_self (lt_of_get hq), h1, by omega, by rw [h4]; exact hnb, by rw [h5]; exact htm⟩
    · exact ⟨q, by rw [List.getElem?_set_ne hi]; exact hq, rfl, hfull, hnb, htm⟩
  have fin' : ∀ {s' : St} {q' : Q} {th' : Thr}, s'.qs[i]? = some q' → q'.thr = q.thr → q'.max ≤ q'.count → q'.nonblock = false → q'.term = false →
      s'.thr[q.thr]? = some th' → (th'.op = .asleep i fo ∨ th'.op = .woken i fo) → th'.this = some i → SelfBlocked s' i q.thr n := by
    intro s' q' th' h1 h2 h3 h4 h5 h6 h7 h8
    exact ⟨q', th', fo, h1, h2, h6, h7, hn, hnf, hsy, h3, h4, h5, h8⟩
  have notidle : ∀ {t' : Nat} {x : Thr}, s.thr[t']? = some x → x.op = .idle → x.op ≠ th.op := by
    intro t' x _ hx he; rw [← he] at nidle; exact nidle hx
  cases ht with
  | skip => exact Or.inl (fin' hq rfl hfull hnb htm hth hop hthis)
  | spawn => exact Or.inl (fin' hq rfl hfull hnb htm (by rw [List.getElem?_append_left (lt_of_get hth)]; exact hth) hop hthis)
  | create m nb hm =>
    exact Or.inl (fin' (by rw [List.getElem?_append_left (lt_of_get hq)]; exact hq) rfl hfull hnb htm (by rw [List.getElem?_append_left (lt_of_get hth)]; exact hth) hop hthis)
  | startErr => exact Or.inl (fin' hq rfl hfull hnb htm hth hop hthis)
  | startInl t' qi x hx ho => exact Or.inl (fin' hq rfl hfull hnb htm (keepT _ t' x _ hx (notidle hx ho) rfl) hop hthis)
  | startGot t' qi x y fo' op hx ho hy =>
    obtain ⟨q', a1, a2, a3, a4, a5⟩ := keepQ qi y { y with usage := y.usage + 1 } hy rfl rfl (Nat.le_refl _) rfl rfl
    exact Or.inl (fin' a1 a2 a3 a4 a5 (keepT _ t' x _ hx (notidle hx ho) rfl) hop hthis)
  | addOk t' qi x y fo' hx ho hy hgd =>
    obtain ⟨q', a1, a2, a3, a4, a5⟩ := keepQ qi y { y with pend := y.pend ++ [fo'], count := y.count + 1 } hy rfl rfl (by simp) rfl rfl
    by_cases he : t' = q.thr
    · exfalso
      subst he
      rw [hth] at hx; cases hx
      have : qi = i ∧ fo' = fo := by
        rcases hop with h | h <;> rw [h] at ho <;> simp at ho <;> exact ⟨ho.1.symm, ho.2.symm⟩
      obtain ⟨rfl, rfl⟩ := this
      rw [hq] at hy; cases hy
      rcases hgd with h | h
      · rw [hnf] at h; simp at h
      · omega
    · exact Or.inl (fin' a1 a2 a3 a4 a5 (by simp only; rw [List.getElem?_set_ne he]; exact hth) hop hthis)
  | addErr t' qi x y fo' rc hx ho hy hrc hw hei hwk =>
    by_cases he : t' = q.thr
    · exfalso
      subst he
      rw [hth] at hx; cases hx
      have : qi = i ∧ fo' = fo ∧ th.op = .woken qi fo' := by
        rcases hop with h | h <;> rw [h] at ho <;> simp at ho
        exact ⟨ho.1.symm, ho.2.symm, by rw [h, ho.1, ho.2]⟩
      obtain ⟨rfl, rfl, hwo⟩ := this
      rw [hq] at hy; cases hy
      rcases hwk.2 with h | h | h
      · exact hwk.1 hwo h
      · obtain ⟨_, qj, qq, e1, e2, e3⟩ := hei h
        rw [hthis] at e1; cases e1
        rw [hq] at e2; cases e2
        rw [htm] at e3; simp at e3
      · rw [hnb] at h; simp at h
    · exact Or.inl (fin' hq rfl hfull hnb htm (by simp only; rw [List.getElem?_set_ne he]; exact hth) hop hthis)
  | addSleep t' qi x y fo' hx ho hy hw hnb' =>
    by_cases he : t' = q.thr
    · subst he
      rw [hth] at hx; cases hx
      have : qi = i ∧ fo' = fo := by
        rcases hop with h | h <;> rw [h] at ho <;> simp at ho <;> exact ⟨ho.1.symm, ho.2.symm⟩
      obtain ⟨rfl, rfl⟩ := this
      exact Or.inl (fin' hq rfl hfull hnb htm (List.getElem?_set_self (lt_of_get hth)) (Or.inl rfl) hthis)
    · exact Or.inl (fin' hq rfl hfull hnb htm (by simp only; rw [List.getElem?_set_ne he]; exact hth) hop hthis)
  | wake t' qi x fo' hx ho =>
    by_cases he : t' = q.thr
    · subst he
      rw [hth] at hx; cases hx
      have : qi = i ∧ fo' = fo := by
        rcases hop with h | h <;> rw [h] at ho <;> simp at ho; exact ⟨ho.1.symm, ho.2.symm⟩
      obtain ⟨rfl, rfl⟩ := this
      exact Or.inl (fin' hq rfl hfull hnb htm (List.getElem?_set_self (lt_of_get hth)) (Or.inr rfl) hthis)
    · exact Or.inl (fin' hq rfl hfull hnb htm (by simp only; rw [List.getElem?_set_ne he]; exact hth) hop hthis)
  | syncRet t' qi x fo' hx ho =>
    exact Or.inl (fin' hq rfl hfull hnb htm (keepT _ t' x _ hx (by rw [ho]; rcases hop with h | h <;> rw [h] <;> simp) rfl) hop hthis)
  | put t' qi x y fo' rc hx ho hy =>
    obtain ⟨q', a1, a2, a3, a4, a5⟩ := keepQ qi y { y with usage := y.usage - 1 } hy rfl rfl (Nat.le_refl _) rfl rfl
    exact Or.inl (fin' a1 a2 a3 a4 a5 (keepT _ t' x _ hx (by rw [ho]; rcases hop with h | h <;> rw [h] <;> simp) rfl) hop hthis)
  | inlRet t' qi n' rest x hx ho => exact Or.inl (fin' hq rfl hfull hnb htm (keepT _ t' x _ hx (notidle hx ho) rfl) hop hthis)
  | dgot t' qi x y hx ho hy =>
    obtain ⟨q', a1, a2, a3, a4, a5⟩ := keepQ qi y { y with usage := y.usage + 1 } hy rfl rfl (Nat.le_refl _) rfl rfl
    exact Or.inl (fin' a1 a2 a3 a4 a5 (keepT _ t' x _ hx (notidle hx ho) rfl) hop hthis)
  | dset t' qi x y hx ho hy =>
    by_cases hi : qi = i
    · subst hi
      exact Or.inr ⟨{ y with term := true }, List.getElem?_set_self (lt_of_get hy), rfl⟩
    · exact Or.inl (fin' (by simp only; rw [List.getElem?_set_ne hi]; exact hq) rfl hfull hnb htm
        (keepT _ t' x _ hx (by rw [ho]; rcases hop with h | h <;> rw [h] <;> simp) rfl) hop hthis)
  | dput t' qi x y hx ho hy =>
    obtain ⟨q', a1, a2, a3, a4, a5⟩ := keepQ qi y { y with usage := y.usage - 1 } hy rfl rfl (Nat.le_refl _) rfl rfl
    have hne : t' ≠ q.thr := by
      rintro rfl; rw [hth] at hx; cases hx
      rcases hop with h | h <;> rw [h] at ho <;> simp at ho
    have h1 : ((s.thr.map (wakeOn x.this)).set t' { x with op := .idle })[q.thr]? = some (wakeOn x.this th) := by
      rw [List.getElem?_set_ne hne, List.getElem?_map, hth]; rfl
    refine Or.inl (fin' a1 a2 a3 a4 a5 h1 ?_ ?_)
    · unfold wakeOn
      rcases hop with h | h <;> rw [h] <;> simp
      · split <;> simp [h]
      · exact Or.inr h
    · unfold wakeOn
      split
      · split <;> exact hthis
      · exact hthis
  | own qi y y' x es hy hx ho hl hk hcc =>
    have hne : qi ≠ i := by
      rintro rfl; rw [hq] at hy; cases hy; rw [hth] at hx; cases hx; exact nidle ho
    exact Or.inl (fin' (by simp only; rw [List.getElem?_set_ne hne]; exact hq) rfl hfull hnb htm hth hop hthis)
  | doneQ qi d y dq x fo' c hy hx ho hl hp hd hdq hdi hc =>
    have hne : qi ≠ i := by
      rintro rfl; rw [hq] at hy; cases hy; rw [hth] at hx; cases hx; exact nidle ho
    have h1 := keepT (s.thr.set y.thr { x with op := .got d c }) y.thr x _ hx (notidle hx ho) rfl
    by_cases hdi' : d = i
    · subst hdi'
      have hdn : ¬ d = qi := fun e => hne e.symm
      rw [hq] at hdq; cases hdq
      refine Or.inl (fin' (q' := { q with usage := q.usage + 1 }) ?_ rfl hfull hnb htm h1 hop hthis)
      simp only [if_neg hdn]
      exact List.getElem?_set_self (by rw [List.length_set]; exact lt_of_get hq)
    · refine Or.inl (fin' (q' := q) ?_ rfl hfull hnb htm h1 hop hthis)
      simp only
      rw [List.getElem?_set_ne hdi', List.getElem?_set_ne hne]; exact hq
  | fin qi y x fo' thr' bad' hy hx ho hl hp hcc =>
    have hne : qi ≠ i := by
      rintro rfl; rw [hq] at hy; cases hy; rw [hth] at hx; cases hx; exact nidle ho
    refine Or.inl (fin' (by simp only; rw [List.getElem?_set_ne hne]; exact hq) rfl hfull hnb htm (th' := th) ?_ hop hthis)
    rcases hcc with ⟨_, rfl, _⟩ | ⟨t', tt, hs, htt, hop', rfl, _⟩ | ⟨t', hs, _, rfl, _⟩
    · exact hth
    · exact keepT _ t' tt _ htt (by rw [hop']; rcases hop with h | h <;> rw [h] <;> simp) rfl
    · exact hth
  | sig qi y x thr' hy hx ho hl hp hcc =>
    have hne : qi ≠ i := by
      rintro rfl; rw [hq] at hy; cases hy; rw [hth] at hx; cases hx; exact nidle ho
    refine Or.inl (fin' (by simp only; rw [List.getElem?_set_ne hne]; exact hq) rfl hfull hnb htm (th' := th) ?_ hop hthis)
    rcases hcc with ⟨_, rfl⟩ | ⟨w, tw, fo', htw, hop', rfl⟩
    · exact hth
    · refine keepT _ w tw _ htw ?_ rfl
      rw [hop']
      rcases hop with h | h <;> rw [h] <;> simp
      intro e; exact absurd e hne

/-- C99, the hole: a function running on a blocking queue that queues to its own full queue blocks its own
thread, the only one that could make room; from then on, whatever happens, the call does not return and
nothing is retired, until somebody destroys the queue. -/
theorem C99_self_deadlock (s : St) (i t n : Nat) (h : SelfBlocked s i t n) (acts : List Act) (s' : St) (hr : run s acts = some s') :
    SelfBlocked s' i t n ∨ ∃ q, s'.qs[i]? = some q ∧ q.term = true := by
  have stay : ∀ (acts : List Act) (s : St), (∃ q, s.qs[i]? = some q ∧ q.term = true) → ∀ s', run s acts = some s' → ∃ q, s'.qs[i]? = some q ∧ q.term = true := by
    intro acts
    induction acts with
    | nil => intro s h s' hr; simp [run] at hr; subst hr; exact h
    | cons a as ih =>
      intro s h s' hr
      simp only [run] at hr
      split at hr
      · rename_i s1 h1
        refine ih s1 ?_ s' hr
        obtain ⟨q, hq, ht⟩ := h
        have htr := step_tr h1
        have keep : ∀ (qi : Nat) (x y : Q), s.qs[qi]? = some x → (x.term = true → y.term = true) →
            ∃ q', (s.qs.set qi y)[i]? = some q' ∧ q'.term = true := by
          intro qi x y hx h1
          by_cases hi : qi = i
          · subst hi
            rw [hq] at hx; cases hx
            exact ⟨y, by simp [lt_of_get hq], h1 ht⟩
          · exact ⟨q, by rw [List.getElem?_set_ne hi]; exact hq, ht⟩
        cases htr with
        | skip => exact ⟨q, hq, ht⟩
        | spawn => exact ⟨q, hq, ht⟩
        | create m nb hm => exact ⟨q, by simp only; rw [List.getElem?_append_left (lt_of_get hq)]; exact hq, ht⟩
        | startErr => exact ⟨q, hq, ht⟩
        | startInl => exact ⟨q, hq, ht⟩
        | startGot t qi th x fo op _ _ hx => exact keep qi x _ hx id
        | addOk t qi th x fo _ _ hx => exact keep qi x _ hx id
        | addErr => exact ⟨q, hq, ht⟩
        | addSleep => exact ⟨q, hq, ht⟩
        | wake => exact ⟨q, hq, ht⟩
        | syncRet => exact ⟨q, hq, ht⟩
        | put t qi th x fo rc _ _ hx => exact keep qi x _ hx id
        | inlRet => exact ⟨q, hq, ht⟩
        | dgot t qi th x _ _ hx => exact keep qi x _ hx id
        | dset t qi th x _ _ hx => exact keep qi x _ hx fun _ => rfl
        | dput t qi th x _ _ hx => exact keep qi x _ hx id
        | own qi x y th es hx _ _ _ hk => exact keep qi x y hx (by rw [hk.2.2.2.2]; exact id)
        | doneQ qi d x dq th fo c hx ht' ho hl hp hd hdq hdi hc =>
          simp only
          by_cases hi : d = i
          · subst hi
            rw [hq] at hdq; cases hdq
            rw [List.getElem?_set_self (by simp [lt_of_get hq])]
            refine ⟨_, rfl, ?_⟩
            split
            · rename_i he; subst he; rw [hq] at hx; cases hx; exact ht
            · exact ht
          · rw [List.getElem?_set_ne hi]
            exact keep qi x _ hx id
        | fin qi x th fo thr' bad' hx => exact keep qi x _ hx id
        | sig qi x th thr' hx => exact keep qi x _ hx id
      · simp at hr
  induction acts generalizing s with
  | nil => simp [run] at hr; subst hr; exact Or.inl h
  | cons a as ih =>
    have hr0 := hr
    simp only [run] at hr
    split at hr
    · rename_i s1 h1
      rcases self_blocked_tr h (step_tr h1) with h2 | h2
      · exact ih s1 h2 hr
      · exact Or.inr (stay as s1 h2 s' hr)
    · simp at hr

/-- The schedule: a blocking queue of size 1; a function running on it queues to the queue. -/
def selfTrace : List Act :=
  [.create 1 false, .spawn, .start 1 0 (.queue none) (.argv 0), .add 1, .put 1, .take 0, .invoke 0 .obj,
   .start 0 0 (.queue none) (.argv 0), .add 0]

theorem C99_self_deadlock_reached : ∃ s, Reachable s ∧ SelfBlocked s 0 0 1 := by
  have h : ∃ s, run init selfTrace = some s := Option.isSome_iff_exists.1 (by decide +kernel)
  have h2 : (run init selfTrace).all (fun s => match s.qs[0]?, s.thr[0]? with
      | some q, some th => match th.op with
        | .asleep 0 fo => q.thr == 0 && fo.n == 1 && fo.noFail == false && fo.sync == none && q.max ≤ q.count && q.nonblock == false && q.term == false &&
            th.this == some 0
        | _ => false
      | _, _ => false) = true := by decide +kernel
  obtain ⟨s, hs⟩ := h
  refine ⟨s, ⟨_, hs⟩, ?_⟩
  rw [hs] at h2
  simp only [Option.all_some] at h2
  split at h2
  · rename_i q th hq hth
    split at h2
    · rename_i fo hop
      simp only [Bool.and_eq_true, beq_iff_eq, decide_eq_true_eq] at h2
      obtain ⟨⟨⟨⟨⟨⟨⟨h1, h2⟩, h3⟩, h4⟩, h5⟩, h6⟩, h7⟩, h8⟩ := h2
      exact ⟨q, th, fo, hq, h1, hth, Or.inl hop, h2, h3, h4, h5, h6, h7, h8⟩
    · simp at h2
  · simp at h2

/-! ### Concrete runs meeting the hypotheses -/

/-- Queue 0 (non-blocking, 2) and queue 1; thread 2 queues two functions to queue 0, the first with completion on
queue 1; both run (the second free-only), the completion runs on queue 1. -/
def demo : List Act :=
  [.create 2 true, .create 2 true, .spawn,
   .start 2 0 (.queue (some 1)) (.argv 3), .add 2, .put 2,
   .start 2 0 (.queue none) (.data 10), .add 2, .put 2,
   .start 2 0 (.queue none) (.data 10), .add 2, .put 2,
   .take 0, .invoke 0 .obj, .ret 0, .done 0, .add 0, .put 0, .fin 0, .sig 0 0,
   .invoke 0 .freeOnly, .ret 0, .done 0, .fin 0, .sig 0 0, .loopEnd 0,
   .take 1, .invoke 1 .obj, .ret 1, .done 1, .fin 1, .sig 1 0, .loopEnd 1]

/-- then queue 0 is destroyed and thread 2 calls on the stale handle -/
def demoEnd : List Act := demo ++
  [.destroy 2 0, .dset 2, .dput 2, .exit 0, .uninst 0, .seenOne 0, .drained 0, .free 0,
   .start 2 0 .call (.argv 0)]

/-- a synchronous call from thread 2, and a nested own-queue call inside it -/
def demoSync : List Act :=
  [.create 2 true, .create 1 true, .spawn, .start 2 0 .call (.argv 3), .add 2, .take 0, .invoke 0 .obj,
   .start 0 0 .run (.argv 0), .inlRet 0, .ret 0, .done 0, .fin 0, .sig 0 0, .syncRet 2, .put 2,
   .start 2 0 .call (.argv 65), .put 2]

/-- a producer blocked on a full queue -/
def demoBlock : List Act :=
  [.create 1 false, .spawn, .start 1 0 (.queue none) (.argv 0), .add 1, .put 1, .start 1 0 (.queue none) (.argv 0), .add 1]

example : (run init demo).map (fun s => (queuedOn 0 s.log, (invokedOn 0 s.log).map tag, queuedOn 1 s.log)) =
    some ([(0, false), (1, false)], [(0, false), (1, false)], [(0, true)]) := by decide +kernel
example : (run init demo).map (fun s => (timesInvoked 0 false s.log, timesInvoked 0 true s.log, timesLocal 0 s.log, accepted 0 s.log, retired 0 s.log)) =
    some (1, 1, 0, 2, 2) := by decide +kernel
example : (run init demo).any (fun s => s.log.contains (.result 2 0 2 false .eagain) && s.log.contains (.result 2 0 0 false .ok) &&
    s.log.contains (.invoked 0 1 false .freeOnly none) && s.log.contains (.returned 0 0 false .obj (some 1))) = true := by decide +kernel
example : (run init demoEnd).any (fun s => (s.qs[0]?.map (·.stage)) == some .dead && s.log.contains (.result 2 0 3 true .einval)) = true := by
  decide +kernel
example : (run init demoSync).any (fun s => s.log.contains (.result 2 0 0 true .ok) && s.log.contains (.inlineRet 0 1) &&
    s.log.contains (.result 2 0 2 true .e2big)) = true := by decide +kernel
example : (run init demoBlock).any (fun s => (s.thr[1]?.map (·.op)) == some (.asleep 0 ⟨1, false, none, none, false⟩)) = true := by decide +kernel
/-- the blocked producer is released by the queue's thread -/
example : (run init (demoBlock ++ [.take 0, .invoke 0 .obj, .ret 0, .done 0, .fin 0, .sig 0 1, .add 1, .put 1])).any
    (fun s => s.log.contains (.result 1 0 1 false .ok)) = true := by decide +kernel

end Verif.Mpq
