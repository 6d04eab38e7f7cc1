import Verif.MpqUse

/-! The log of a queue follows the contents of the queue. -/

namespace Verif.Mpq

/-- (call, completion?) pairs queued to queue `i`, in order. Models no code of its own. -/
def queuedOn (i : Nat) (log : List Ev) : List (Nat × Bool) :=
  log.filterMap fun e => match e with
    | .queued q n c => if q = i then some (n, c) else none
    | _ => none

/-- What queue `i` invoked from its list, in order. Models no code of its own. -/
def invokedOn (i : Nat) (log : List Ev) : List (Nat × Bool × Mode × Option Nat) :=
  log.filterMap fun e => match e with
    | .invoked q n c m d => if q = i then some (n, c, m, d) else none
    | _ => none

/-- For the statements and proofs about the models imported; models no code of its own. -/
def returnedOn (i : Nat) (log : List Ev) : List (Nat × Bool × Mode × Option Nat) :=
  log.filterMap fun e => match e with
    | .returned q n c m d => if q = i then some (n, c, m, d) else none
    | _ => none

/-- For the statements and proofs about the models imported; models no code of its own. -/
def finishedOn (i : Nat) (log : List Ev) : List (Nat × Bool) :=
  log.filterMap fun e => match e with
    | .finished q n c => if q = i then some (n, c) else none
    | _ => none

/-- For the statements and proofs about the models imported; models no code of its own. -/
def tag (x : Nat × Bool × Mode × Option Nat) : Nat × Bool := (x.1, x.2.1)
/-- For the statements and proofs about the models imported; models no code of its own. -/
def ftag (fo : Fo) : Nat × Bool := (fo.n, fo.compl)
/-- For the statements and proofs about the models imported; models no code of its own. -/
def full (fo : Fo) (m : Mode) : Nat × Bool × Mode × Option Nat := (fo.n, fo.compl, m, fo.done)

/-- For the statements and proofs about the models imported; models no code of its own. -/
def running : Phase → List (Nat × Bool × Mode × Option Nat)
  | .run fo m => [full fo m]
  | _ => []

/-- For the statements and proofs about the models imported; models no code of its own. -/
def afterRun : Phase → List (Nat × Bool)
  | .post fo _ => [ftag fo]
  | .runFree fo => [ftag fo]
  | .fin fo => [ftag fo]
  | _ => []

/-- The function object being processed. Models no code of its own. -/
def curFo : Phase → List Fo
  | .run fo _ => [fo]
  | .post fo _ => [fo]
  | .runFree fo => [fo]
  | .fin fo => [fo]
  | _ => []

/-- Function objects accepted and not yet freed. Models no code of its own. -/
def Q.outstanding (q : Q) : List Fo := curFo q.phase ++ q.batch ++ q.pend

/-- For the statements and proofs about the models imported; models no code of its own. -/
def regs (l : List Fo) : Nat := l.countP fun fo => !fo.noFail

/-- For the statements and proofs about the models imported; models no code of its own. -/
structure LQ (i : Nat) (q : Q) (log : List Ev) : Prop where
  qd : queuedOn i log = (invokedOn i log).map tag ++ q.batch.map ftag ++ q.pend.map ftag
  iv : invokedOn i log = returnedOn i log ++ running q.phase
  rt : (returnedOn i log).map tag = finishedOn i log ++ afterRun q.phase
  ct : q.count = q.outstanding.length
  bd : regs q.outstanding ≤ q.max
  ps : ∀ fo m, q.phase = .post fo m → full fo m ∈ returnedOn i log

/-- For the statements and proofs about the models imported; models no code of its own. -/
structure LG (s : St) : Prop where
  q : ∀ (i : Nat) (q : Q), s.qs[i]? = some q → LQ i q s.log
  e : ∀ i : Nat, s.qs.length ≤ i → queuedOn i s.log = [] ∧ invokedOn i s.log = [] ∧ returnedOn i s.log = [] ∧ finishedOn i s.log = []

theorem queuedOn_append (i : Nat) (a b : List Ev) : queuedOn i (a ++ b) = queuedOn i a ++ queuedOn i b := by simp [queuedOn]
theorem invokedOn_append (i : Nat) (a b : List Ev) : invokedOn i (a ++ b) = invokedOn i a ++ invokedOn i b := by simp [invokedOn]
theorem returnedOn_append (i : Nat) (a b : List Ev) : returnedOn i (a ++ b) = returnedOn i a ++ returnedOn i b := by simp [returnedOn]
theorem finishedOn_append (i : Nat) (a b : List Ev) : finishedOn i (a ++ b) = finishedOn i a ++ finishedOn i b := by simp [finishedOn]

/-- Events that do not concern queue `i`'s list. Models no code of its own. -/
def quiet (i : Nat) (es : List Ev) : Prop :=
  queuedOn i es = [] ∧ invokedOn i es = [] ∧ returnedOn i es = [] ∧ finishedOn i es = []

theorem quiet_lists {i : Nat} {log es : List Ev} (h : quiet i es) :
    queuedOn i (log ++ es) = queuedOn i log ∧ invokedOn i (log ++ es) = invokedOn i log ∧
    returnedOn i (log ++ es) = returnedOn i log ∧ finishedOn i (log ++ es) = finishedOn i log := by
  obtain ⟨h1, h2, h3, h4⟩ := h
  simp [queuedOn_append, invokedOn_append, returnedOn_append, finishedOn_append, *]

theorem LQ_quiet {i : Nat} {q : Q} {log es : List Ev} (h : LQ i q log) (hq : quiet i es) : LQ i q (log ++ es) := by
  obtain ⟨h1, h2, h3, h4⟩ := quiet_lists (log := log) hq
  exact ⟨by rw [h1, h2]; exact h.qd, by rw [h2, h3]; exact h.iv, by rw [h3, h4]; exact h.rt, h.ct, h.bd,
    by rw [h3]; exact h.ps⟩

/-- Queue unchanged except for fields the log does not follow. -/
theorem LQ_same {i : Nat} {q q' : Q} {log : List Ev} (h : LQ i q log) (h1 : q'.pend = q.pend) (h2 : q'.batch = q.batch)
    (h3 : q'.phase = q.phase) (h4 : q'.count = q.count) (h5 : q'.max = q.max) : LQ i q' log := by
  refine ⟨?_, ?_, ?_, ?_, ?_, ?_⟩
  · rw [h1, h2]; exact h.qd
  · rw [h3]; exact h.iv
  · rw [h3]; exact h.rt
  · rw [h4]; simp only [Q.outstanding, h1, h2, h3]; exact h.ct
  · rw [h5]; simp only [Q.outstanding, h1, h2, h3]; exact h.bd
  · rw [h3]; exact h.ps

theorem LG_upd {s : St} (hg : LG s) {qi : Nat} {q q' : Q} {es : List Ev} (hq : s.qs[qi]? = some q)
    (hl : LQ qi q' (s.log ++ es)) (he : ∀ j, j ≠ qi → quiet j es)
    (s' : St) (hqs : s'.qs = s.qs.set qi q') (hlog : s'.log = s.log ++ es) : LG s' := by
  constructor
  · intro i x hx
    rw [hqs] at hx
    rw [hlog]
    rcases get_set hx with ⟨rfl, rfl⟩ | ⟨hne, hx⟩
    · exact hl
    · exact LQ_quiet (hg.q i x hx) (he i hne)
  · intro i hi
    rw [hqs, List.length_set] at hi
    have := lt_of_get hq
    have hx := quiet_lists (log := s.log) (he i (by omega))
    rw [hlog, hx.1, hx.2.1, hx.2.2.1, hx.2.2.2]
    exact hg.e i hi

/-- Only threads change, and the events are quiet. -/
theorem LG_quiet {s : St} (hg : LG s) {es : List Ev} (he : ∀ j, quiet j es)
    (s' : St) (hqs : s'.qs = s.qs) (hlog : s'.log = s.log ++ es) : LG s' := by
  constructor
  · intro i x hx
    rw [hqs] at hx; rw [hlog]
    exact LQ_quiet (hg.q i x hx) (he i)
  · intro i hi
    rw [hqs] at hi
    have hx := quiet_lists (log := s.log) (he i)
    rw [hlog, hx.1, hx.2.1, hx.2.2.1, hx.2.2.2]
    exact hg.e i hi

theorem quiet_nil (j : Nat) : quiet j [] := by simp [quiet, queuedOn, invokedOn, returnedOn, finishedOn]

theorem quiet_result (j t q n : Nat) (sy : Bool) (rc : Rc) : quiet j [.result t q n sy rc] := by
  simp [quiet, queuedOn, invokedOn, returnedOn, finishedOn]

theorem LG_tr {s s' : St} (hu : U s) (hg : LG s) (h : Tr s s') : LG s' := by
  cases h with
  | skip => exact hg
  | spawn => exact ⟨hg.q, hg.e⟩
  | create m nb hm =>
    constructor
    · intro i q hq
      rcases get_append hq with ⟨rfl, rfl⟩ | ⟨hlt, hq⟩
      · obtain ⟨h1, h2, h3, h4⟩ := hg.e s.qs.length (Nat.le_refl _)
        exact ⟨by simp [h1, h2], by simp [h2, h3, running], by simp [h3, h4, afterRun], by simp [Q.outstanding, curFo],
          by simp [Q.outstanding, curFo, regs], by simp⟩
      · exact hg.q i q hq
    · intro i hi; simp at hi; exact hg.e i (by omega)
  | startErr t qi th sy dn rc ht hrc => exact LG_quiet hg (es := [.called t qi s.next sy dn, .result t qi s.next sy rc]) (fun j => by simp [quiet, queuedOn, invokedOn, returnedOn, finishedOn]) _ rfl (by simp)
  | startInl t qi th ht ho hthis ha =>
    exact LG_quiet hg (es := [.called t qi s.next true none, .inlined qi s.next]) (fun j => by simp [quiet, queuedOn, invokedOn, returnedOn, finishedOn]) _ rfl (by simp)
  | startGot t qi th q fo op ht ho hq hi hn hc hnf hs hsd hself hop =>
    exact LG_upd hg hq (q' := { q with usage := q.usage + 1 }) (es := [.called t qi fo.n fo.sync.isSome fo.done])
      (LQ_quiet (LQ_same (hg.q qi q hq) rfl rfl rfl rfl rfl) (by simp [quiet, queuedOn, invokedOn, returnedOn, finishedOn]))
      (fun j _ => by simp [quiet, queuedOn, invokedOn, returnedOn, finishedOn]) _ rfl rfl
  | addOk t qi th q fo ht ho hq hgd =>
    have h := hg.q qi q hq
    refine LG_upd hg hq (q' := { q with pend := q.pend ++ [fo], count := q.count + 1 }) (es := [.queued qi fo.n fo.compl])
      ?_ ?_ _ rfl rfl
    · constructor
      · simp only [queuedOn_append, invokedOn_append, h.qd]
        simp [queuedOn, invokedOn, ftag]
      · simp only [returnedOn_append, invokedOn_append, h.iv]
        simp [returnedOn, invokedOn]
      · simp only [returnedOn_append, finishedOn_append, List.map_append, h.rt]
        simp [returnedOn, finishedOn]
      · have := h.ct
        simp [Q.outstanding] at this ⊢; omega
      · have h1 := h.bd
        have h2 := h.ct
        have h3 : regs q.outstanding ≤ q.outstanding.length := List.countP_le_length
        simp only [Q.outstanding] at h1 h2 h3 ⊢
        simp only [regs, List.countP_append, List.countP_cons, List.countP_nil] at h1 h3 ⊢
        rcases hgd with hgd | hgd
        · simp [hgd]; omega
        · split <;> omega
      · intro fo' m hp
        rw [returnedOn_append]
        exact List.mem_append_left _ (h.ps fo' m hp)
    · intro j hj
      simp [quiet, queuedOn, invokedOn, returnedOn, finishedOn]; omega
  | addErr t qi th q fo rc ht ho hq hrc hw hei hwk => exact LG_quiet hg quiet_nil _ rfl (by simp)
  | addSleep t qi th q fo ht ho hq hw hnb => exact LG_quiet hg quiet_nil _ rfl (by simp)
  | wake t qi th fo ht ho => exact LG_quiet hg quiet_nil _ rfl (by simp)
  | syncRet t qi th fo ht ho => exact LG_quiet hg quiet_nil _ rfl (by simp)
  | put t qi th q fo rc ht ho hq =>
    refine LG_upd hg hq (q' := { q with usage := q.usage - 1 })
      (es := if fo.compl then [] else [.result t qi fo.n fo.sync.isSome rc]) ?_ ?_ _ rfl ?_
    · refine LQ_quiet (LQ_same (hg.q qi q hq) rfl rfl rfl rfl rfl) ?_
      split
      · exact quiet_nil qi
      · exact quiet_result _ _ _ _ _ _
    · intro j _
      split
      · exact quiet_nil j
      · exact quiet_result _ _ _ _ _ _
    · split <;> simp
  | inlRet t qi n rest th ht ho hl hthis =>
    exact LG_quiet hg (es := [.inlineRet qi n, .result t qi n true .ok])
      (fun j => by simp [quiet, queuedOn, invokedOn, returnedOn, finishedOn]) _ rfl (by simp)
  | dgot t qi th q ht ho hq hi =>
    exact LG_upd hg hq (q' := { q with usage := q.usage + 1 }) (es := [])
      (by rw [List.append_nil]; exact LQ_same (hg.q qi q hq) rfl rfl rfl rfl rfl) (fun j _ => quiet_nil j) _ rfl (by simp)
  | dset t qi th q ht ho hq =>
    exact LG_upd hg hq (q' := { q with term := true }) (es := [])
      (by rw [List.append_nil]; exact LQ_same (hg.q qi q hq) rfl rfl rfl rfl rfl) (fun j _ => quiet_nil j) _ rfl (by simp)
  | dput t qi th q ht ho hq =>
    exact LG_upd hg hq (q' := { q with usage := q.usage - 1 }) (es := [])
      (by rw [List.append_nil]; exact LQ_same (hg.q qi q hq) rfl rfl rfl rfl rfl) (fun j _ => quiet_nil j) _ rfl (by simp)
  | own qi q q' th es hq ht ho hl hk hc =>
    have h := hg.q qi q hq
    rcases hc with ⟨hp, _, _, hpe, rfl, rfl⟩ | ⟨fo, rest, m, hp, hb, rfl, rfl⟩ | ⟨hp, hb, rfl, rfl⟩ | ⟨fo, m, hp, rfl, rfl⟩ |
        ⟨fo, m, hp, _, rfl, rfl⟩ | ⟨fo, d, hp, hd, hf, rfl, rfl⟩ | ⟨fo, hp, rfl, rfl⟩ | ⟨hp, _, _, rfl, rfl⟩ | ⟨hp, _, rfl, rfl⟩ |
        ⟨hp, _, _, rfl, rfl⟩ | ⟨hp, _, _, rfl, rfl⟩ | ⟨hp, _, rfl, rfl⟩
    · -- take
      refine LG_upd hg hq (es := []) ?_ (fun j _ => quiet_nil j) _ rfl (by simp)
      rw [List.append_nil]
      have hb : q.batch = [] := (hu.st qi q hq).2.2.2 hp
      have h1 := h.qd; have h2 := h.iv; have h3 := h.rt; have h4 := h.ct; have h5 := h.bd
      simp only [hp, hb, running, afterRun, List.append_nil, Q.outstanding, curFo, List.nil_append, List.map_nil] at h1 h2 h3 h4 h5
      exact ⟨by simpa using h1, by simpa [running] using h2, by simpa [afterRun] using h3, by simpa [Q.outstanding, curFo] using h4,
        by simpa [Q.outstanding, curFo] using h5, by simp⟩
    · -- invoke
      refine LG_upd hg hq (es := [.invoked qi fo.n fo.compl m fo.done]) ?_ ?_ _ rfl rfl
      · have h1 := h.qd; have h2 := h.iv; have h3 := h.rt; have h4 := h.ct; have h5 := h.bd
        simp only [hp, hb, running, afterRun, List.append_nil, Q.outstanding, curFo, List.nil_append] at h1 h2 h3 h4 h5
        constructor
        · simp only [queuedOn_append, invokedOn_append, h1]
          simp [queuedOn, invokedOn, ftag, tag]
        · simp only [returnedOn_append, invokedOn_append, h2]
          simp [returnedOn, invokedOn, running, full]
        · simp only [returnedOn_append, finishedOn_append, List.map_append, h3]
          simp [returnedOn, finishedOn, afterRun]
        · simpa [Q.outstanding, curFo] using h4
        · simpa [Q.outstanding, curFo] using h5
        · intro fo' m' hp'; simp at hp'
      · intro j hj
        simp [quiet, queuedOn, invokedOn, returnedOn, finishedOn]; omega
    · -- loopEnd
      refine LG_upd hg hq (es := []) ?_ (fun j _ => quiet_nil j) _ rfl (by simp)
      rw [List.append_nil]
      have h1 := h.qd; have h2 := h.iv; have h3 := h.rt; have h4 := h.ct; have h5 := h.bd
      simp only [hp, running, afterRun, Q.outstanding, curFo] at h2 h3 h4 h5
      exact ⟨h1, h2, h3, h4, h5, by simp⟩
    · -- ret
      refine LG_upd hg hq (es := [.returned qi fo.n fo.compl m fo.done]) ?_ ?_ _ rfl rfl
      · have h1 := h.qd; have h2 := h.iv; have h3 := h.rt; have h4 := h.ct; have h5 := h.bd
        simp only [hp, running, afterRun, List.append_nil, Q.outstanding, curFo] at h1 h2 h3 h4 h5
        constructor
        · simp only [queuedOn_append, invokedOn_append, h1]
          simp [queuedOn, invokedOn, ftag, tag]
        · simp only [returnedOn_append, invokedOn_append, h2]
          simp [returnedOn, invokedOn, running, full]
        · simp only [returnedOn_append, finishedOn_append, List.map_append, h3]
          simp [returnedOn, finishedOn, afterRun, tag, ftag]
        · simpa [Q.outstanding, curFo] using h4
        · simpa [Q.outstanding, curFo] using h5
        · intro fo' m' hp'; simp at hp'
          obtain ⟨rfl, rfl⟩ := hp'
          simp [returnedOn_append, returnedOn, full]
      · intro j hj
        simp [quiet, queuedOn, invokedOn, returnedOn, finishedOn]; omega
    · -- done, nothing
      refine LG_upd hg hq (es := []) ?_ (fun j _ => quiet_nil j) _ rfl (by simp)
      rw [List.append_nil]
      have h1 := h.qd; have h2 := h.iv; have h3 := h.rt; have h4 := h.ct; have h5 := h.bd
      simp only [hp, running, afterRun, Q.outstanding, curFo] at h2 h3 h4 h5
      exact ⟨h1, h2, h3, h4, h5, by simp⟩
    · -- local free
      have hqq : quiet qi [.localFree qi fo.n] := by simp [quiet, queuedOn, invokedOn, returnedOn, finishedOn]
      refine LG_upd hg hq (es := [.localFree qi fo.n]) ?_
        (fun j _ => by simp [quiet, queuedOn, invokedOn, returnedOn, finishedOn]) _ rfl rfl
      refine LQ_quiet ?_ hqq
      have h1 := h.qd; have h2 := h.iv; have h3 := h.rt; have h4 := h.ct; have h5 := h.bd
      simp only [hp, running, afterRun, Q.outstanding, curFo] at h2 h3 h4 h5
      exact ⟨h1, h2, h3, h4, h5, by simp⟩
    · -- freeRet
      refine LG_upd hg hq (es := []) ?_ (fun j _ => quiet_nil j) _ rfl (by simp)
      rw [List.append_nil]
      have h1 := h.qd; have h2 := h.iv; have h3 := h.rt; have h4 := h.ct; have h5 := h.bd
      simp only [hp, running, afterRun, Q.outstanding, curFo] at h2 h3 h4 h5
      exact ⟨h1, h2, h3, h4, h5, by simp⟩
    all_goals
      refine LG_upd hg hq (es := []) ?_ (fun j _ => quiet_nil j) _ rfl (by simp)
      rw [List.append_nil]; exact LQ_same h rfl rfl rfl rfl rfl
  | doneQ qi d q dq th fo c hq ht ho hl hp hd hdq hdi hc =>
    have h := hg.q qi q hq
    have hg1 : LG { s with qs := s.qs.set qi { q with phase := .fin fo } } := by
      refine LG_upd hg hq (q' := { q with phase := .fin fo }) (es := []) ?_ (fun j _ => quiet_nil j) _ rfl (by simp)
      rw [List.append_nil]
      have h1 := h.qd; have h2 := h.iv; have h3 := h.rt; have h4 := h.ct; have h5 := h.bd
      simp only [hp, running, afterRun, Q.outstanding, curFo] at h2 h3 h4 h5
      exact ⟨h1, h2, h3, h4, h5, by simp⟩
    have hd1 : ({ s with qs := s.qs.set qi { q with phase := .fin fo } } : St).qs[d]? =
        some (if d = qi then { q with phase := .fin fo } else dq) := by
      simp only [List.getElem?_set]
      by_cases hdi : d = qi
      · subst hdi; simp [lt_of_get hq]
      · rw [if_neg (fun e => hdi e.symm), hdq, if_neg hdi]
    refine LG_upd hg1 hd1 (es := []) ?_ (fun j _ => quiet_nil j) _ rfl (by simp)
    rw [List.append_nil]
    have := hg1.q d _ hd1
    by_cases hdi : d = qi
    · rw [if_pos hdi] at this ⊢; exact LQ_same this rfl rfl rfl rfl rfl
    · rw [if_neg hdi] at this ⊢; exact LQ_same this rfl rfl rfl rfl rfl
  | fin qi q th fo thr' bad' hq ht ho hl hp hc =>
    have h := hg.q qi q hq
    refine LG_upd hg hq (q' := { q with phase := .sig, count := q.count - 1 }) (es := [.finished qi fo.n fo.compl]) ?_ ?_ _ rfl rfl
    · have h1 := h.qd; have h2 := h.iv; have h3 := h.rt; have h4 := h.ct; have h5 := h.bd
      simp only [hp, running, afterRun, List.append_nil, Q.outstanding, curFo] at h1 h2 h3 h4 h5
      constructor
      · simp only [queuedOn_append, invokedOn_append, h1]
        simp [queuedOn, invokedOn, ftag, tag]
      · simp only [returnedOn_append, invokedOn_append, h2]
        simp [returnedOn, invokedOn, running]
      · simp only [returnedOn_append, finishedOn_append, List.map_append, h3]
        simp [returnedOn, finishedOn, afterRun, ftag]
      · simp [Q.outstanding, curFo] at h4 ⊢; omega
      · simp only [Q.outstanding, curFo, List.nil_append]
        simp only [regs, List.countP_append, List.countP_cons, List.countP_nil, List.cons_append, List.nil_append] at h5 ⊢
        omega
      · intro fo' m' hp'; simp at hp'
    · intro j hj
      simp [quiet, queuedOn, invokedOn, returnedOn, finishedOn]; omega
  | sig qi q th thr' hq ht ho hl hp hc =>
    have h := hg.q qi q hq
    refine LG_upd hg hq (q' := { q with phase := .next }) (es := []) ?_ (fun j _ => quiet_nil j) _ rfl (by simp)
    rw [List.append_nil]
    have h1 := h.qd; have h2 := h.iv; have h3 := h.rt; have h4 := h.ct; have h5 := h.bd
    simp only [hp, running, afterRun, Q.outstanding, curFo] at h2 h3 h4 h5
    exact ⟨h1, h2, h3, h4, h5, by simp⟩

theorem LG_reach : ∀ s, Reachable s → LG s := by
  intro s hs
  have : U s ∧ LG s := by
    revert s
    refine reach_induction ⟨U_reach _ ⟨[], rfl⟩, ⟨by simp [init], ?_⟩⟩ fun s s' h ht => ⟨U_tr h.1 ht, LG_tr h.1 h.2 ht⟩
    intro i _; simp [init, queuedOn, invokedOn, returnedOn, finishedOn]
  exact this.2

end Verif.Mpq
