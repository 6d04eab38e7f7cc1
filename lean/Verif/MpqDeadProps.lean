import Verif.MpqDead

/-!
# Calls between queues come back unless queues wait for each other in a circle

kernel/mpq.c:371-491, 624-703.  The property theorems of C192 on the model of `Verif.Mpq`.
-/

namespace Verif.Mpq

/-- The queues of `W` wait for each other: every one of them has its thread waiting for one of them. -/
def Circle (s : St) (W : Nat → Prop) : Prop := (∃ i, W i) ∧ ∀ i, W i → ∃ j, W j ∧ QWaits s i j

/-- How many results call `n` has had. -/
def results (n : Nat) (log : List Ev) : Nat :=
  log.countP fun e => match e with
    | .result _ _ n' _ _ => n' == n
    | _ => false

/-- Every call made has come back, with one result. -/
def AllBack (s : St) : Prop := ∀ t q n sy d, Ev.called t q n sy d ∈ s.log →
  (∃ rc, Ev.result t q n sy rc ∈ s.log) ∧ results n s.log = 1

theorem run_reach {s s' : St} (h : Reachable s) {acts : List Act} (hr : run s acts = some s') : Reachable s' := by
  obtain ⟨bs, hb⟩ := h
  exact ⟨bs ++ acts, by rw [run_append hb, hr]⟩

/-- C192: whatever the order in which the threads run, the calls under way need a bounded number of steps: nothing goes
round for ever by itself. -/
theorem C192_bounded (s s' : St) (acts : List Act) (hi : ∀ a ∈ acts, internal a = true) (hr : run s acts = some s') :
    acts.length + work s' ≤ work s := by
  induction acts generalizing s with
  | nil => simp [run] at hr; subst hr; simp
  | cons a as ih =>
    simp only [run] at hr
    split at hr
    · rename_i s1 h1
      have h2 := internal_work (hi a (by simp)) h1
      have h3 := ih s1 (fun b hb => hi b (by simp [hb])) hr
      simp only [List.length_cons]
      omega
    · simp at hr

/-- So every order of steps ends in a state where no call under way can make another one. -/
theorem C192_settles (s : St) : ∃ acts s', (∀ a ∈ acts, internal a = true) ∧ run s acts = some s' ∧ Settled s' := by
  have key : ∀ n s, work s ≤ n → ∃ acts s', (∀ a ∈ acts, internal a = true) ∧ run s acts = some s' ∧ Settled s' := by
    intro n
    induction n with
    | zero =>
      intro s h0
      refine ⟨[], s, by simp, rfl, fun a ha => ?_⟩
      cases hs : step s a with
      | none => rfl
      | some s1 => have := internal_work ha hs; omega
    | succ n ih =>
      intro s hn
      by_cases hs : Settled s
      · exact ⟨[], s, by simp, rfl, hs⟩
      · obtain ⟨a, ha⟩ := Classical.not_forall.1 hs
        obtain ⟨hi, hne⟩ := Classical.not_imp.1 ha
        obtain ⟨s1, h1⟩ := Option.ne_none_iff_exists'.1 hne
        have := internal_work hi h1
        obtain ⟨acts, s', h2, h3, h4⟩ := ih s1 (by omega)
        refine ⟨a :: acts, s', ?_, by simp [run, h1, h3], h4⟩
        intro b hb
        rcases List.mem_cons.1 hb with rfl | hb
        · exact hi
        · exact h2 b hb
  exact key _ s (Nat.le_refl _)

theorem all_back {s : St} (h : Reachable s) (hid : ∀ (t : Nat) (th : Thr), s.thr[t]? = some th → th.op = .idle ∧ th.inl = []) : AllBack s := by
  intro t q n sy d hm
  have hct := CT_reach s h n
  have hun := Un_reach s h
  have h1 := tot_mem_le (evCalled n) hm
  have h2 := hun.one n
  have h3 : tot (inCall n) s.thr = 0 := by
    rw [tot_zero]
    intro x hx
    obtain ⟨u, hu, rfl⟩ := List.getElem_of_mem hx
    obtain ⟨a, b⟩ := hid u s.thr[u] (by simp [hu])
    simp [inCall, opCall, a, b]
  have h1' : 1 ≤ tot (evCalled n) s.log := by simpa [evCalled, b2n] using h1
  have h4 : tot (evRes n) s.log = 1 := by omega
  have h5 : results n s.log = 1 := by
    rw [results, ← tot_countP _ (evRes n) (fun e => ?_)]
    · exact h4
    · cases e <;> simp [evRes, b2n]
  refine ⟨?_, h5⟩
  have h6 : 0 < results n s.log := by omega
  obtain ⟨e, he, hp⟩ := List.countP_pos_iff.1 h6
  split at hp
  · rename_i t' q' n' sy' rc
    have hn : n' = n := by simpa using hp
    subst hn
    obtain ⟨l1, l2, hl⟩ := List.append_of_mem he
    obtain ⟨d', hd'⟩ := (Asked_reach s h).2 l1 _ l2 hl
    have hd2 : Ev.called t' q' n' sy' d' ∈ s.log := by rw [hl]; exact List.mem_append_left _ hd'
    obtain ⟨m1, m2, hm2⟩ := List.append_of_mem hm
    have h7 := h2
    rw [hm2, tot_app', tot_cons] at h7
    simp only [evCalled, beq_self_eq_true, b2n, if_true] at h7
    rw [hm2] at hd2
    rcases List.mem_append.1 hd2 with hd2 | hd2
    · have := tot_mem_le (evCalled n') hd2
      simp only [evCalled, beq_self_eq_true, b2n, if_true] at this
      omega
    · rcases List.mem_cons.1 hd2 with hd2 | hd2
      · cases hd2
        exact ⟨rc, he⟩
      · have := tot_mem_le (evCalled n') hd2
        simp only [evCalled, beq_self_eq_true, b2n, if_true] at this
        omega
  · simp at hp

/-- C192: when the calls under way have made all the steps they can, in whatever order, then either every call ever made has come back, with
exactly one result, or some queues wait for each other in a circle. -/
theorem C192_back_or_circle (s s' : St) (h : Reachable s) (acts : List Act) (hr : run s acts = some s') (hs : Settled s') :
    (AllBack s' ∧ ∀ (t : Nat) (th : Thr), s'.thr[t]? = some th → th.op = .idle ∧ th.inl = []) ∨ ∃ W, Circle s' W := by
  have hr' := run_reach h hr
  by_cases hw : ∃ (t : Nat) (th : Thr) (j : Nat), s'.thr[t]? = some th ∧ waitsFor j th.op
  · right
    obtain ⟨t, th, j, ht, hj⟩ := hw
    obtain ⟨k, hk⟩ := settled_target hr' hs ht hj
    refine ⟨fun i => ∃ k, QWaits s' i k, ⟨j, k, hk⟩, ?_⟩
    rintro i ⟨k, q, tq, hq, htq, hk⟩
    exact ⟨k, settled_target hr' hs htq hk, q, tq, hq, htq, hk⟩
  · left
    have hid : ∀ (t : Nat) (th : Thr), s'.thr[t]? = some th → th.op = .idle ∧ th.inl = [] := by
      intro t th ht
      rcases settled_thread hr' hs ht with h1 | ⟨j, hj⟩
      · exact h1
      · exact absurd ⟨t, th, j, ht, hj⟩ hw
    exact ⟨all_back hr' hid, hid⟩

/-- C192: in particular nothing is left waiting when queues only ever wait for queues of a lower rank. -/
theorem C192_ordered (s s' : St) (h : Reachable s) (acts : List Act) (hr : run s acts = some s') (hs : Settled s')
    (rank : Nat → Nat) (hrk : ∀ i j, QWaits s' i j → rank j < rank i) : AllBack s' := by
  rcases C192_back_or_circle s s' h acts hr hs with ⟨h1, _⟩ | ⟨W, ⟨i, hi⟩, hW⟩
  · exact h1
  · exfalso
    have : ∀ n i, rank i ≤ n → ¬ W i := by
      intro n
      induction n with
      | zero =>
        intro i hn hw
        obtain ⟨j, _, hq⟩ := hW i hw
        have := hrk i j hq; omega
      | succ n ih =>
        intro i hn hw
        obtain ⟨j, hj, hq⟩ := hW i hw
        have := hrk i j hq
        exact ih j (by omega) hj
    exact this _ i (Nat.le_refl _) hi

/-! ### A circle is never left -/

/-- The thread of queue `i` waits, synchronously, for a queue of `W`. -/
def SyncIn (s : St) (W : Nat → Prop) (i : Nat) : Prop :=
  ∃ q th j fo, s.qs[i]? = some q ∧ s.thr[q.thr]? = some th ∧ th.op = .syncWait j fo false ∧ W j

/-- A waiting synchronous caller stays where it is unless the queue's own thread gets out of the library. -/
theorem syncWait_stays {s s' : St} (htr : Tr s s') {t j : Nat} {th tj : Thr} {fo : Fo} {qj : Q} (ht : s.thr[t]? = some th) (ho : th.op = .syncWait j fo false)
    (hqj : s.qs[j]? = some qj) (htj : s.thr[qj.thr]? = some tj) (hb : tj.op ≠ .idle) : ∃ th', s'.thr[t]? = some th' ∧ th'.op = .syncWait j fo false := by
  have same : ∃ th', s.thr[t]? = some th' ∧ th'.op = .syncWait j fo false := ⟨th, ht, ho⟩
  have upd : ∀ (u : Nat) (x y : Thr), s.thr[u]? = some x → (x.op ≠ .syncWait j fo false ∨ y.op = x.op) → ∃ th', (s.thr.set u y)[t]? = some th' ∧ th'.op = .syncWait j fo false := by
    intro u x y hx h1
    by_cases e : u = t
    · subst e
      rw [ht] at hx; cases hx
      rcases h1 with h1 | h1
      · exact absurd ho h1
      · exact ⟨y, List.getElem?_set_self (lt_of_get ht), h1.trans ho⟩
    · exact ⟨th, by rw [List.getElem?_set_ne e]; exact ht, ho⟩
  cases htr with
  | skip => exact same
  | spawn => exact ⟨th, by simp only; rw [List.getElem?_append_left (lt_of_get ht)]; exact ht, ho⟩
  | create m nb hm => exact ⟨th, by simp only; rw [List.getElem?_append_left (lt_of_get ht)]; exact ht, ho⟩
  | startErr => exact same
  | startInl u qi x hx hidle => exact upd u x _ hx (.inr rfl)
  | startGot u qi x q f op hx hidle => exact upd u x _ hx (.inl (by simp [hidle]))
  | addOk u qi x q f hx hop => exact upd u x _ hx (.inl (by rcases hop with e | e <;> simp [e]))
  | addErr u qi x q f rc hx hop => exact upd u x _ hx (.inl (by rcases hop with e | e <;> simp [e]))
  | addSleep u qi x q f hx hop => exact upd u x _ hx (.inl (by rcases hop with e | e <;> simp [e]))
  | wake u qi x f hx hop => exact upd u x _ hx (.inl (by simp [hop]))
  | syncRet u qi x f hx hop => exact upd u x _ hx (.inl (by simp [hop]))
  | put u qi x q f rc hx hop => exact upd u x _ hx (.inl (by simp [hop]))
  | inlRet u qi n rest x hx => exact upd u x _ hx (.inr rfl)
  | dgot u qi x q hx hop => exact upd u x _ hx (.inl (by simp [hop]))
  | dset u qi x q hx hop => exact upd u x _ hx (.inl (by simp [hop]))
  | dput u qi x q hx hop =>
    by_cases e : u = t
    · subst e
      rw [ht] at hx; cases hx; rw [ho] at hop; cases hop
    · refine ⟨wakeOn x.this th, by simp only; rw [List.getElem?_set_ne e, List.getElem?_map, ht]; rfl, ?_⟩
      unfold wakeOn; rw [ho]; exact ho
  | own => exact same
  | doneQ qi d q dq x f c _ hx hidle => exact upd q.thr x _ hx (.inl (by simp [hidle]))
  | fin qi q x f thr' bad' hq hx hidle _ _ hc =>
    rcases hc with ⟨_, rfl, _⟩ | ⟨u, tt, _, htt, hop, rfl, _⟩ | ⟨u, _, _, rfl, _⟩
    · exact same
    · refine upd u tt _ htt (.inl ?_)
      rw [hop]
      intro e
      injection e with e1 e2
      subst e1
      rw [hqj] at hq; cases hq
      rw [htj] at hx; cases hx
      exact hb hidle
    · exact same
  | sig qi q x thr' _ _ _ _ _ hc =>
    rcases hc with ⟨_, rfl⟩ | ⟨w, tw, f, htw, hop, rfl⟩
    · exact same
    · exact upd w tw _ htw (.inl (by simp [hop]))

theorem q_thr_stays {s s' : St} (htr : Tr s s') {i : Nat} {q : Q} (hq : s.qs[i]? = some q) : ∃ q', s'.qs[i]? = some q' ∧ q'.thr = q.thr := by
  have h0 : (s.qs.map (·.thr))[i]? = some q.thr := by rw [List.getElem?_map, hq]; rfl
  have : (s'.qs.map (·.thr))[i]? = some q.thr := by
    rcases shape_tr htr with ⟨_, h2⟩ | ⟨_, h2⟩ | ⟨_, h2⟩
    · rw [h2]; exact h0
    · rw [h2]; exact h0
    · rw [h2, List.getElem?_append_left (lt_of_get h0)]; exact h0
  rw [List.getElem?_map] at this
  exact Option.map_eq_some_iff.1 this

theorem syncIn_tr {s s' : St} {W : Nat → Prop} (h : ∀ i, W i → SyncIn s W i) (htr : Tr s s') : ∀ i, W i → SyncIn s' W i := by
  intro i hi
  obtain ⟨q, th, j, fo, hq, ht, ho, hj⟩ := h i hi
  obtain ⟨qj, tj, _, _, hqj, htj, hoj, _⟩ := h j hj
  obtain ⟨th', h1, h2⟩ := syncWait_stays htr ht ho hqj htj (by rw [hoj]; simp)
  obtain ⟨q', h3, h4⟩ := q_thr_stays htr hq
  exact ⟨q', th', j, fo, h3, by rw [h4]; exact h1, h2, hj⟩

/-- C192, the other direction: queues that call each other synchronously in a circle are lost. Whatever happens afterwards - new calls, spurious
wake-ups, even their destruction - the thread `t` of any caller of theirs stays in its call, which never has a result. -/
theorem C192_circle (s s' : St) (h : Reachable s) (W : Nat → Prop) (hW : ∀ i, W i → SyncIn s W i) (acts : List Act) (hr : run s acts = some s')
    (t j : Nat) (th : Thr) (fo : Fo) (ht : s.thr[t]? = some th) (ho : th.op = .syncWait j fo false) (hj : W j) :
    (∃ th', s'.thr[t]? = some th' ∧ th'.op = .syncWait j fo false) ∧ ∀ t' q' sy rc, Ev.result t' q' fo.n sy rc ∉ s'.log := by
  have key : ∀ (acts : List Act) (s : St) (th : Thr), (∀ i, W i → SyncIn s W i) → run s acts = some s' → s.thr[t]? = some th → th.op = .syncWait j fo false →
      ∃ th', s'.thr[t]? = some th' ∧ th'.op = .syncWait j fo false := by
    intro acts
    induction acts with
    | nil => intro s th hW hr ht ho; simp [run] at hr; subst hr; exact ⟨th, ht, ho⟩
    | cons a as ih =>
      intro s th hW hr ht ho
      simp only [run] at hr
      split at hr
      · rename_i s1 h1
        have htr := step_tr h1
        obtain ⟨qj, tj, _, _, hqj, htj, hoj, _⟩ := hW j hj
        obtain ⟨th1, h2, h3⟩ := syncWait_stays htr ht ho hqj htj (by rw [hoj]; simp)
        exact ih s1 th1 (syncIn_tr hW htr) hr h2 h3
      · simp at hr
  obtain ⟨th', ht', ho'⟩ := key acts s th hW hr ht ho
  refine ⟨⟨th', ht', ho'⟩, ?_⟩
  intro t' q' sy rc hm
  have hr' := run_reach h hr
  have h1 := CT_reach s' hr' fo.n
  have h2 := (Un_reach s' hr').one fo.n
  have h3 := tot_mem_le (evRes fo.n) hm
  have h4 := tot_le (inCall fo.n) ht'
  have hc : fo.compl = false := by
    have hwf := ((Base_reach s' hr').w.t t th' ht').1 fo (by simp [ho', opFo])
    obtain ⟨hs, _⟩ := SW_reach s' hr' t th' ht' j fo ho'
    cases hcc : fo.compl with
    | false => rfl
    | true => have := (hwf.1 hcc).2.2; rw [hs] at this; cases this
  simp [inCall, opCall, ho', hc, b2n] at h4
  simp [evRes, b2n] at h3
  omega

/-- Two queues, each running a function that calls the other one synchronously. -/
def circleTrace : List Act :=
  [.spawn, .create 5 false, .create 5 false,
   .start 0 0 (.queue none) (.argv 0), .add 0, .put 0, .start 0 1 (.queue none) (.argv 0), .add 0, .put 0,
   .take 0, .invoke 0 .obj, .take 1, .invoke 1 .obj,
   .start 1 1 .call (.argv 0), .start 2 0 .call (.argv 0), .add 1, .add 2]

/-- C192: such a circle comes about by two ordinary calls. -/
theorem C192_circle_reached : ∃ s, run init circleTrace = some s ∧ Reachable s ∧ ∀ i, i < 2 → SyncIn s (· < 2) i := by
  have h : ∃ s, run init circleTrace = some s ∧ (∃ q th fo, s.qs[0]? = some q ∧ s.thr[q.thr]? = some th ∧ th.op = .syncWait 1 fo false) ∧
      (∃ q th fo, s.qs[1]? = some q ∧ s.thr[q.thr]? = some th ∧ th.op = .syncWait 0 fo false) := by
    refine ⟨_, rfl, ⟨_, _, _, rfl, rfl, rfl⟩, ⟨_, _, _, rfl, rfl, rfl⟩⟩
  obtain ⟨s, hr, ⟨q0, t0, f0, a0, b0, c0⟩, ⟨q1, t1, f1, a1, b1, c1⟩⟩ := h
  refine ⟨s, hr, ⟨_, hr⟩, fun i hi => ?_⟩
  match i, hi with
  | 0, _ => exact ⟨q0, t0, 1, f0, a0, b0, c0, by decide⟩
  | 1, _ => exact ⟨q1, t1, 0, f1, a1, b1, c1, by decide⟩

/-- One queue calling another one that is busy, and a thread calling the first: everything comes back (hypotheses of `C192_ordered`). -/
def chainTrace : List Act :=
  [.spawn, .create 5 false, .create 1 false,
   .start 0 0 .call (.argv 0), .add 0, .take 0, .invoke 0 .obj, .start 1 1 .call (.argv 0), .add 1]

example : ∃ s s', run init chainTrace = some s ∧ QWaits s 0 1 ∧ results 0 s.log = 0 ∧
    run s [.take 1, .invoke 1 .obj, .ret 1, .done 1, .fin 1, .sig 1 0, .loopEnd 1, .syncRet 1, .put 1, .ret 0, .done 0, .fin 0, .sig 0 0, .loopEnd 0, .syncRet 0, .put 0] = some s' ∧
    results 0 s'.log = 1 ∧ results 1 s'.log = 1 := by
  refine ⟨_, _, rfl, ⟨_, _, rfl, rfl, _, .inr rfl⟩, ?_, rfl, ?_⟩ <;> decide +kernel

/-! ### Circles with full queues -/

/-- A queue whose thread is inside the library does not get emptier, and keeps its configuration. -/
theorem full_stays {s s' : St} (htr : Tr s s') {j : Nat} {qj : Q} {tj : Thr} (hqj : s.qs[j]? = some qj) (htj : s.thr[qj.thr]? = some tj) (hb : tj.op ≠ .idle) :
    ∃ q', s'.qs[j]? = some q' ∧ q'.thr = qj.thr ∧ q'.max = qj.max ∧ q'.nonblock = qj.nonblock ∧ qj.count ≤ q'.count := by
  have same : ∃ q', s.qs[j]? = some q' ∧ q'.thr = qj.thr ∧ q'.max = qj.max ∧ q'.nonblock = qj.nonblock ∧ qj.count ≤ q'.count := ⟨qj, hqj, rfl, rfl, rfl, Nat.le_refl _⟩
  have upd : ∀ (qi : Nat) (x y : Q), s.qs[qi]? = some x → y.thr = x.thr → y.max = x.max → y.nonblock = x.nonblock → (x.count ≤ y.count ∨ ∃ tx, s.thr[x.thr]? = some tx ∧ tx.op = .idle) →
      ∃ q', (s.qs.set qi y)[j]? = some q' ∧ q'.thr = qj.thr ∧ q'.max = qj.max ∧ q'.nonblock = qj.nonblock ∧ qj.count ≤ q'.count := by
    intro qi x y hx h1 h2 h3 h4
    by_cases e : qi = j
    · subst e
      rw [hqj] at hx; cases hx
      refine ⟨y, List.getElem?_set_self (lt_of_get hqj), h1, h2, h3, ?_⟩
      rcases h4 with h4 | ⟨tx, h5, h6⟩
      · exact h4
      · rw [htj] at h5; cases h5; exact absurd h6 hb
    · exact ⟨qj, by rw [List.getElem?_set_ne e]; exact hqj, rfl, rfl, rfl, Nat.le_refl _⟩
  cases htr with
  | skip => exact same
  | spawn => exact same
  | create m nb hm => exact ⟨qj, by simp only; rw [List.getElem?_append_left (lt_of_get hqj)]; exact hqj, rfl, rfl, rfl, Nat.le_refl _⟩
  | startErr => exact same
  | startInl => exact same
  | startGot u qi x q f op hx _ hq => exact upd qi q _ hq rfl rfl rfl (.inl (Nat.le_refl _))
  | addOk u qi x q f hx _ hq => exact upd qi q _ hq rfl rfl rfl (.inl (Nat.le_succ _))
  | addErr => exact same
  | addSleep => exact same
  | wake => exact same
  | syncRet => exact same
  | put u qi x q f rc hx _ hq => exact upd qi q _ hq rfl rfl rfl (.inl (Nat.le_refl _))
  | inlRet => exact same
  | dgot u qi x q hx _ hq => exact upd qi q _ hq rfl rfl rfl (.inl (Nat.le_refl _))
  | dset u qi x q hx _ hq => exact upd qi q _ hq rfl rfl rfl (.inl (Nat.le_refl _))
  | dput u qi x q hx _ hq => exact upd qi q _ hq rfl rfl rfl (.inl (Nat.le_refl _))
  | own qi q q' x es hq hx hidle _ hk => exact upd qi q q' hq hk.1 hk.2.1 hk.2.2.1 (.inr ⟨x, hx, hidle⟩)
  | doneQ qi d q dq x f c hq hx hidle hl hp hd hdq =>
    by_cases e : d = j
    · subst e
      by_cases e2 : d = qi
      · subst e2
        rw [hqj] at hq; cases hq
        rw [htj] at hx; cases hx
        exact absurd hidle hb
      · rw [hqj] at hdq; cases hdq
        refine ⟨{ qj with usage := qj.usage + 1 }, ?_, rfl, rfl, rfl, Nat.le_refl _⟩
        simp only [e2, if_false]
        exact List.getElem?_set_self (by rw [List.length_set]; exact lt_of_get hqj)
    · simp only
      rw [List.getElem?_set_ne e]
      exact upd qi q _ hq rfl rfl rfl (.inl (Nat.le_refl _))
  | fin qi q x f thr' bad' hq hx hidle => exact upd qi q _ hq rfl rfl rfl (.inr ⟨x, hx, hidle⟩)
  | sig qi q x thr' hq hx hidle => exact upd qi q _ hq rfl rfl rfl (.inl (Nat.le_refl _))

/-- A producer of a full blocking queue stays blocked, unless its own queue has been told to terminate. -/
theorem asleep_stays {s s' : St} (htr : Tr s s') {t j : Nat} {th : Thr} {fo : Fo} {qj : Q} (ht : s.thr[t]? = some th) (ho : th.op = .asleep j fo ∨ th.op = .woken j fo)
    (hqj : s.qs[j]? = some qj) (hf : fo.noFail = false) (hfull : qj.max ≤ qj.count) (hnb : qj.nonblock = false) (hterm : s.termThis th = false) :
    ∃ th', s'.thr[t]? = some th' ∧ (th'.op = .asleep j fo ∨ th'.op = .woken j fo) := by
  have same : ∃ th', s.thr[t]? = some th' ∧ (th'.op = .asleep j fo ∨ th'.op = .woken j fo) := ⟨th, ht, ho⟩
  have upd : ∀ (u : Nat) (x y : Thr), s.thr[u]? = some x → (u = t → (y.op = .asleep j fo ∨ y.op = .woken j fo)) →
      ∃ th', (s.thr.set u y)[t]? = some th' ∧ (th'.op = .asleep j fo ∨ th'.op = .woken j fo) := by
    intro u x y hx h1
    by_cases e : u = t
    · subst e
      exact ⟨y, List.getElem?_set_self (lt_of_get ht), h1 rfl⟩
    · exact ⟨th, by rw [List.getElem?_set_ne e]; exact ht, ho⟩
  have is : ∀ {u : Nat} {x : Thr}, s.thr[u]? = some x → u = t → x = th := by
    rintro u x hx rfl
    rw [ht] at hx; cases hx; rfl
  cases htr with
  | skip => exact same
  | spawn => exact ⟨th, by simp only; rw [List.getElem?_append_left (lt_of_get ht)]; exact ht, ho⟩
  | create m nb hm => exact ⟨th, by simp only; rw [List.getElem?_append_left (lt_of_get ht)]; exact ht, ho⟩
  | startErr => exact same
  | startInl u qi x hx hidle => exact upd u x _ hx fun e => by cases is hx e; rcases ho with h | h <;> (rw [h] at hidle; cases hidle)
  | startGot u qi x q f op hx hidle => exact upd u x _ hx fun e => by cases is hx e; rcases ho with h | h <;> (rw [h] at hidle; cases hidle)
  | addOk u qi x q f hx hop hq hg =>
    refine upd u x _ hx fun e => ?_
    cases is hx e
    exfalso
    rcases ho with h | h <;> rcases hop with h2 | h2 <;> rw [h] at h2 <;> cases h2
    rw [hqj] at hq; cases hq
    rcases hg with hg | hg
    · rw [hf] at hg; cases hg
    · omega
  | addErr u qi x q f rc hx hop hq hrc hw hei hwk =>
    refine upd u x _ hx fun e => ?_
    cases is hx e
    exfalso
    rcases ho with h | h <;> rcases hop with h2 | h2 <;> rw [h] at h2 <;> cases h2
    rw [hqj] at hq; cases hq
    rcases hwk.2 with h3 | h3 | h3
    · exact hwk.1 h h3
    · obtain ⟨_, qk, qq, h4, h5, h6⟩ := hei h3
      simp [St.termThis, h4, h5, h6] at hterm
    · rw [hnb] at h3; cases h3
  | addSleep u qi x q f hx hop =>
    refine upd u x _ hx fun e => ?_
    cases is hx e
    rcases ho with h | h <;> rcases hop with h2 | h2 <;> rw [h] at h2 <;> cases h2
    exact .inl rfl
  | wake u qi x f hx hop =>
    refine upd u x _ hx fun e => ?_
    cases is hx e
    rcases ho with h | h <;> rw [h] at hop <;> cases hop
    exact .inr rfl
  | syncRet u qi x f hx hop => exact upd u x _ hx fun e => by cases is hx e; rcases ho with h | h <;> (rw [h] at hop; cases hop)
  | put u qi x q f rc hx hop => exact upd u x _ hx fun e => by cases is hx e; rcases ho with h | h <;> (rw [h] at hop; cases hop)
  | inlRet u qi n rest x hx hidle => exact upd u x _ hx fun e => by cases is hx e; exact ho
  | dgot u qi x q hx hop => exact upd u x _ hx fun e => by cases is hx e; rcases ho with h | h <;> (rw [h] at hop; cases hop)
  | dset u qi x q hx hop => exact upd u x _ hx fun e => by cases is hx e; rcases ho with h | h <;> (rw [h] at hop; cases hop)
  | dput u qi x q hx hop =>
    by_cases e : u = t
    · cases is hx e; rcases ho with h | h <;> (rw [h] at hop; cases hop)
    · refine ⟨wakeOn x.this th, by simp only; rw [List.getElem?_set_ne e, List.getElem?_map, ht]; rfl, ?_⟩
      unfold wakeOn
      rcases ho with h | h
      · rw [h]; simp only
        split
        · exact .inr rfl
        · exact .inl h
      · rw [h]; exact .inr h
  | own => exact same
  | doneQ qi d q dq x f c _ hx hidle => exact upd q.thr x _ hx fun e => by cases is hx e; rcases ho with h | h <;> (rw [h] at hidle; cases hidle)
  | fin qi q x f thr' bad' hq hx hidle _ _ hc =>
    rcases hc with ⟨_, rfl, _⟩ | ⟨u, tt, _, htt, hop, rfl, _⟩ | ⟨u, _, _, rfl, _⟩
    · exact same
    · exact upd u tt _ htt fun e => by cases is htt e; rcases ho with h | h <;> (rw [h] at hop; cases hop)
    · exact same
  | sig qi q x thr' _ _ _ _ _ hc =>
    rcases hc with ⟨_, rfl⟩ | ⟨w, tw, f, htw, hop, rfl⟩
    · exact same
    · refine upd w tw _ htw fun e => ?_
      cases is htw e
      rcases ho with h | h <;> rw [h] at hop <;> cases hop
      exact .inr rfl

/-- The thread of queue `i` is in a call that waits for a queue of `W`: for a function queued to it, or for room in it while it is full and blocking. -/
def HeldIn (s : St) (W : Nat → Prop) (i : Nat) : Prop :=
  ∃ q th j fo qj, s.qs[i]? = some q ∧ s.thr[q.thr]? = some th ∧ W j ∧ s.qs[j]? = some qj ∧
    (th.op = .syncWait j fo false ∨
      ((th.op = .asleep j fo ∨ th.op = .woken j fo) ∧ fo.noFail = false ∧ qj.max ≤ qj.count ∧ qj.nonblock = false))

theorem heldIn_tr {s s' : St} (hr : Reachable s) {W : Nat → Prop} (h : ∀ i, W i → HeldIn s W i) (hterm : ∀ i q, W i → s.qs[i]? = some q → q.term = false)
    (htr : Tr s s') : ∀ i, W i → HeldIn s' W i := by
  intro i hi
  obtain ⟨q, th, j, fo, qj, hq, ht, hj, hqj, ho⟩ := h i hi
  obtain ⟨q2, tj, _, _, _, hq2, htj, _, _, hoj⟩ := h j hj
  rw [hqj] at hq2; cases hq2
  have hb : tj.op ≠ .idle := by rcases hoj with e | ⟨e | e, _⟩ <;> rw [e] <;> simp
  obtain ⟨qj', h1, h2, h3, h4, h5⟩ := full_stays htr hqj htj hb
  obtain ⟨q', h6, h7⟩ := q_thr_stays htr hq
  rcases ho with ho | ⟨ho, hf, hfull, hnb⟩
  · obtain ⟨th', h8, h9⟩ := syncWait_stays htr ht ho hqj htj hb
    exact ⟨q', th', j, fo, qj', h6, by rw [h7]; exact h8, hj, h1, .inl h9⟩
  · obtain ⟨x, hx, hthis⟩ := queue_thread hr hq
    rw [ht] at hx; cases hx
    have hte : s.termThis th = false := by simp [St.termThis, hthis, hq, hterm i q hi hq]
    obtain ⟨th', h8, h9⟩ := asleep_stays htr ht ho hqj hf hfull hnb hte
    exact ⟨q', th', j, fo, qj', h6, by rw [h7]; exact h8, hj, h1, .inr ⟨h9, hf, by omega, by rw [h4]; exact hnb⟩⟩

/-- C192: the same holds for circles in which some of the queues wait for room in a full one: they stay as they are
until one of these queues is destroyed from outside. -/
theorem C192_full_circle (s s' : St) (h : Reachable s) (W : Nat → Prop) (hW : ∀ i, W i → HeldIn s W i) (acts : List Act) (hr : run s acts = some s') :
    (∀ i, W i → HeldIn s' W i) ∨ ∃ i q, W i ∧ s'.qs[i]? = some q ∧ q.term = true := by
  induction acts generalizing s with
  | nil => simp [run] at hr; subst hr; exact .inl hW
  | cons a as ih =>
    simp only [run] at hr
    split at hr
    · rename_i s1 h1
      have htr := step_tr h1
      have h2 : Reachable s1 := run_reach h (acts := [a]) (by simp [run, h1])
      by_cases hte : ∃ i q, W i ∧ s.qs[i]? = some q ∧ q.term = true
      · obtain ⟨i, q, h3, h4, h5⟩ := hte
        right
        have : ∀ (as : List Act) (s1 : St), (∃ q, s1.qs[i]? = some q ∧ q.term = true) → run s1 as = some s' → ∃ q, s'.qs[i]? = some q ∧ q.term = true := by
          intro as
          induction as with
          | nil => intro s1 h hr; simp [run] at hr; subst hr; exact h
          | cons b bs ih2 =>
            intro s1 h hr
            simp only [run] at hr
            split at hr
            · rename_i s2 h6
              exact ih2 s2 (term_stays h (step_tr h6)) hr
            · simp at hr
        obtain ⟨q', h6, h7⟩ := this as s1 (term_stays ⟨q, h4, h5⟩ htr) hr
        exact ⟨i, q', h3, h6, h7⟩
      · refine ih s1 h2 (heldIn_tr h hW (fun i q hi hq => ?_) htr) hr
        cases hh : q.term with
        | false => rfl
        | true => exact absurd ⟨i, q, hi, hq, hh⟩ hte
    · simp at hr

/-- Two queues of size one, full, each running a function that queues to the other one. -/
def fullTrace : List Act :=
  [.spawn, .create 1 false, .create 1 false,
   .start 0 0 (.queue none) (.argv 0), .add 0, .put 0, .start 0 1 (.queue none) (.argv 0), .add 0, .put 0,
   .take 0, .invoke 0 .obj, .take 1, .invoke 1 .obj,
   .start 1 1 (.queue none) (.argv 0), .start 2 0 (.queue none) (.argv 0), .add 1, .add 2]

theorem C192_full_circle_reached : ∃ s, run init fullTrace = some s ∧ Reachable s ∧ ∀ i, i < 2 → HeldIn s (· < 2) i := by
  have h : ∃ s, run init fullTrace = some s ∧
      (∃ q th fo qj, s.qs[0]? = some q ∧ s.thr[q.thr]? = some th ∧ s.qs[1]? = some qj ∧ th.op = .asleep 1 fo ∧ fo.noFail = false ∧ qj.max ≤ qj.count ∧ qj.nonblock = false) ∧
      (∃ q th fo qj, s.qs[1]? = some q ∧ s.thr[q.thr]? = some th ∧ s.qs[0]? = some qj ∧ th.op = .asleep 0 fo ∧ fo.noFail = false ∧ qj.max ≤ qj.count ∧ qj.nonblock = false) := by
    refine ⟨_, rfl, ⟨_, _, _, _, rfl, rfl, rfl, rfl, rfl, ?_, rfl⟩, ⟨_, _, _, _, rfl, rfl, rfl, rfl, rfl, ?_, rfl⟩⟩ <;> decide
  obtain ⟨s, hr, ⟨q0, t0, f0, p0, a0, b0, c0, d0⟩, ⟨q1, t1, f1, p1, a1, b1, c1, d1⟩⟩ := h
  refine ⟨s, hr, ⟨_, hr⟩, fun i hi => ?_⟩
  match i, hi with
  | 0, _ => exact ⟨q0, t0, 1, f0, p0, a0, b0, by decide, c0, .inr ⟨.inl d0.1, d0.2⟩⟩
  | 1, _ => exact ⟨q1, t1, 0, f1, p1, a1, b1, by decide, c1, .inr ⟨.inl d1.1, d1.2⟩⟩

end Verif.Mpq
