import Verif.MpqLog

/-! Every call is accepted, refused or run inline at most once; its completion happens at most once. -/

namespace Verif.Mpq

/-- 0/1. Models no code of its own. -/
def b2n (b : Bool) : Nat := if b then 1 else 0

/-- A thread about to add (or having failed to add) the function (`c = false`) or completion of call `n`. Models no code of its own. -/
def preOp (n : Nat) (c : Bool) : Op → Nat
  | .got _ fo => b2n (fo.n == n && fo.compl == c)
  | .asleep _ fo => b2n (fo.n == n && fo.compl == c)
  | .woken _ fo => b2n (fo.n == n && fo.compl == c)
  | .put _ fo rc => b2n (fo.n == n && fo.compl == c && rc != .ok)
  | _ => 0

/-- For the statements and proofs about the models imported; models no code of its own. -/
def preT (n : Nat) (c : Bool) (th : Thr) : Nat := preOp n c th.op

/-- For the statements and proofs about the models imported; models no code of its own. -/
def evQueued (n : Nat) (c : Bool) : Ev → Nat
  | .queued _ n' c' => b2n (n' == n && c' == c)
  | _ => 0

/-- For the statements and proofs about the models imported; models no code of its own. -/
def evFail (n : Nat) : Ev → Nat
  | .result _ _ n' _ rc => b2n (n' == n && rc != .ok)
  | _ => 0

/-- For the statements and proofs about the models imported; models no code of its own. -/
def evInl (n : Nat) : Ev → Nat
  | .inlined _ n' => b2n (n' == n)
  | _ => 0

/-- For the statements and proofs about the models imported; models no code of its own. -/
def evLocal (n : Nat) : Ev → Nat
  | .localFree _ n' => b2n (n' == n)
  | _ => 0

/-- Call `n`'s function returned having been given its object, with a completion queue. Models no code of its own. -/
def evRetDone (n : Nat) : Ev → Nat
  | .returned _ n' false .obj (some _) => b2n (n' == n)
  | _ => 0

/-- For the statements and proofs about the models imported; models no code of its own. -/
def evRet (n : Nat) (c : Bool) : Ev → Nat
  | .returned _ n' c' _ _ => b2n (n' == n && c' == c)
  | _ => 0

/-- For the statements and proofs about the models imported; models no code of its own. -/
def evInv (n : Nat) (c : Bool) : Ev → Nat
  | .invoked _ n' c' _ _ => b2n (n' == n && c' == c)
  | _ => 0

/-- For the statements and proofs about the models imported; models no code of its own. -/
def foIs (n : Nat) (c : Bool) (fo : Fo) : Nat := b2n (fo.n == n && fo.compl == c)

/-- Waiting in the queue's lists. Models no code of its own. -/
def qWait (n : Nat) (c : Bool) (q : Q) : Nat := tot (foIs n c) q.batch + tot (foIs n c) q.pend

/-- For the statements and proofs about the models imported; models no code of its own. -/
def phRun (n : Nat) (c : Bool) : Phase → Nat
  | .run fo _ => foIs n c fo
  | _ => 0

/-- For the statements and proofs about the models imported; models no code of its own. -/
def phPost (n : Nat) : Phase → Nat
  | .post fo .obj => b2n (fo.n == n && fo.done.isSome)
  | _ => 0

/-- For the statements and proofs about the models imported; models no code of its own. -/
def qRun (n : Nat) (c : Bool) (q : Q) : Nat := phRun n c q.phase
/-- For the statements and proofs about the models imported; models no code of its own. -/
def qPost (n : Nat) (q : Q) : Nat := phPost n q.phase

/-- For the statements and proofs about the models imported; models no code of its own. -/
structure Tok (s : St) : Prop where
  one : ∀ n, tot (preT n false) s.thr + tot (evQueued n false) s.log + tot (evFail n) s.log + tot (evInl n) s.log ≤ 1
  fresh : ∀ n, s.next ≤ n →
    tot (preT n false) s.thr + tot (evQueued n false) s.log + tot (evFail n) s.log + tot (evInl n) s.log = 0
  inv : ∀ n c, tot (evQueued n c) s.log = tot (evInv n c) s.log + tot (qWait n c) s.qs
  ret : ∀ n c, tot (evInv n c) s.log = tot (evRet n c) s.log + tot (qRun n c) s.qs
  dn : ∀ n, tot (evRetDone n) s.log = tot (qPost n) s.qs + tot (preT n true) s.thr + tot (evQueued n true) s.log + tot (evLocal n) s.log

/-- Function objects are well formed: a completion cannot fail, has no completion of
its own and no waiting caller; only completions ignore the bound. Models no code of its own. -/
def foWF (fo : Fo) : Prop :=
  (fo.compl = true → fo.noFail = true ∧ fo.done = none ∧ fo.sync = none) ∧ (fo.compl = false → fo.noFail = false)

/-- For the statements and proofs about the models imported; models no code of its own. -/
def opFo : Op → Option Fo
  | .got _ fo => some fo
  | .asleep _ fo => some fo
  | .woken _ fo => some fo
  | .syncWait _ fo _ => some fo
  | .put _ fo _ => some fo
  | _ => none

/-- Well-formed program points: a completion is only ever at `got` or successful. Models no code of its own. -/
def opWF (op : Op) : Prop :=
  (∀ fo, opFo op = some fo → foWF fo) ∧
  (∀ q fo, op = .asleep q fo → fo.compl = false) ∧
  (∀ q fo, op = .woken q fo → fo.compl = false) ∧
  (∀ q fo rc, op = .put q fo rc → rc ≠ .ok → fo.compl = false)

/-- For the statements and proofs about the models imported; models no code of its own. -/
structure WF (s : St) : Prop where
  t : ∀ (t : Nat) (th : Thr), s.thr[t]? = some th → opWF th.op
  q : ∀ (i : Nat) (q : Q), s.qs[i]? = some q → ∀ fo ∈ q.outstanding, foWF fo

theorem WF_upd {s : St} (hw : WF s) {qi t : Nat} {q' : Q} {th' : Thr}
    (ht' : opWF th'.op) (hq' : ∀ fo ∈ q'.outstanding, foWF fo) (s' : St)
    (hqs : s'.qs = s.qs.set qi q') (hth : s'.thr = s.thr.set t th') : WF s' := by
  constructor
  · intro u x hx
    rw [hth] at hx
    rcases get_set hx with ⟨rfl, rfl⟩ | ⟨hne, hx⟩
    · exact ht'
    · exact hw.t u x hx
  · intro u x hx
    rw [hqs] at hx
    rcases get_set hx with ⟨rfl, rfl⟩ | ⟨hne, hx⟩
    · exact hq'
    · exact hw.q u x hx

theorem opWF_idle : opWF .idle := by simp [opWF, opFo]

theorem WF_tr {s s' : St} (hw : WF s) (h : Tr s s') : WF s' := by
  cases h with
  | skip => exact hw
  | spawn =>
    refine ⟨fun t th ht => ?_, hw.q⟩
    rcases get_append ht with ⟨rfl, rfl⟩ | ⟨_, ht⟩
    · exact opWF_idle
    · exact hw.t t th ht
  | create m nb hm =>
    refine ⟨fun t th ht => ?_, fun i q hq => ?_⟩
    · rcases get_append ht with ⟨rfl, rfl⟩ | ⟨_, ht⟩
      · exact opWF_idle
      · exact hw.t t th ht
    · rcases get_append hq with ⟨rfl, rfl⟩ | ⟨_, hq⟩
      · simp [Q.outstanding, curFo]
      · exact hw.q i q hq
  | startErr t qi th sy dn rc ht hrc => exact ⟨hw.t, hw.q⟩
  | startInl t qi th ht ho hthis ha =>
    refine ⟨fun u x hx => ?_, hw.q⟩
    rcases get_set hx with ⟨rfl, rfl⟩ | ⟨hne, hx⟩
    · exact hw.t u th ht
    · exact hw.t u x hx
  | startGot t qi th q fo op ht ho hq hi hn hc hnf hs hsd hself hop =>
    refine WF_upd hw (th' := { th with op := op }) (q' := { q with usage := q.usage + 1 }) ?_ (fun fo hf => hw.q qi q hq fo hf) _ rfl rfl
    have : foWF fo := by simp [foWF, hc, hnf]
    rcases hop with rfl | ⟨rc, h1, h2, rfl⟩ <;> simp [opWF, opFo, this, hc]
  | addOk t qi th q fo ht ho hq hgd =>
    have hwf : foWF fo := (hw.t t th ht).1 fo (by rcases ho with ho | ho <;> simp [ho, opFo])
    refine WF_upd hw (t := t) (qi := qi) (th' := { th with op := if fo.sync.isSome then .syncWait qi fo false else .put qi fo .ok })
      (q' := { q with pend := q.pend ++ [fo], count := q.count + 1 }) ?_ ?_ _ rfl rfl
    · split <;> simp [opWF, opFo, hwf]
    · intro fo' hf
      have := hw.q qi q hq fo'
      simp [Q.outstanding] at hf this
      grind
  | addErr t qi th q fo rc ht ho hq hrc hww hei hwk =>
    have hwf : foWF fo := (hw.t t th ht).1 fo (by rcases ho with ho | ho <;> simp [ho, opFo])
    refine WF_upd hw (t := t) (qi := qi) (th' := { th with op := .put qi fo rc }) (q' := q) ?_ (hw.q qi q hq) _ (set_self hq).symm rfl
    have hc : fo.compl = false := by
      cases hc : fo.compl
      · rfl
      · have := hwf.1 hc
        rcases hww with hww | hww
        · exact absurd this.2.1 hww.2
        · rw [this.1] at hww; simp at hww
    simp [opWF, opFo, hwf, hc]
  | addSleep t qi th q fo ht ho hq hww hnb =>
    have hwf : foWF fo := (hw.t t th ht).1 fo (by rcases ho with ho | ho <;> simp [ho, opFo])
    have hc : fo.compl = false := by
      cases hc : fo.compl
      · rfl
      · have := hwf.1 hc; rw [this.1] at hww; simp at hww
    refine WF_upd hw (t := t) (qi := qi) (th' := { th with op := .asleep qi fo }) (q' := q) ?_ (hw.q qi q hq) _ (set_self hq).symm rfl
    simp [opWF, opFo, hwf, hc]
  | wake t qi th fo ht ho =>
    have h1 := hw.t t th ht
    refine ⟨fun u x hx => ?_, hw.q⟩
    rcases get_set hx with ⟨rfl, rfl⟩ | ⟨hne, hx⟩
    · have hc : fo.compl = false := h1.2.1 qi fo ho
      have hwf : foWF fo := h1.1 fo (by simp [ho, opFo])
      simp [opWF, opFo, hwf, hc]
    · exact hw.t u x hx
  | syncRet t qi th fo ht ho =>
    have h1 := hw.t t th ht
    refine ⟨fun u x hx => ?_, hw.q⟩
    rcases get_set hx with ⟨rfl, rfl⟩ | ⟨hne, hx⟩
    · have hwf : foWF fo := h1.1 fo (by simp [ho, opFo])
      simp [opWF, opFo, hwf]
    · exact hw.t u x hx
  | put t qi th q fo rc ht ho hq =>
    exact WF_upd hw (t := t) (qi := qi) (th' := { th with op := .idle }) (q' := { q with usage := q.usage - 1 })
      opWF_idle (fun fo hf => hw.q qi q hq fo hf) _ rfl rfl
  | inlRet t qi n rest th ht ho hl hthis =>
    refine ⟨fun u x hx => ?_, hw.q⟩
    rcases get_set hx with ⟨rfl, rfl⟩ | ⟨hne, hx⟩
    · exact hw.t u th ht
    · exact hw.t u x hx
  | dgot t qi th q ht ho hq hi =>
    exact WF_upd hw (t := t) (qi := qi) (th' := { th with op := .dgot qi }) (q' := { q with usage := q.usage + 1 })
      (by simp [opWF, opFo]) (fun fo hf => hw.q qi q hq fo hf) _ rfl rfl
  | dset t qi th q ht ho hq =>
    exact WF_upd hw (t := t) (qi := qi) (th' := { th with op := .dterm qi }) (q' := { q with term := true })
      (by simp [opWF, opFo]) (fun fo hf => hw.q qi q hq fo hf) _ rfl rfl
  | dput t qi th q ht ho hq =>
    have hw1 : WF { s with thr := s.thr.map (wakeOn th.this) } := by
      refine ⟨fun u x hx => ?_, hw.q⟩
      simp only [List.getElem?_map, Option.map_eq_some_iff] at hx
      obtain ⟨y, hy, rfl⟩ := hx
      have h1 := hw.t u y hy
      unfold wakeOn
      split
      · rename_i qj fo hop
        have hc : fo.compl = false := h1.2.1 qj fo hop
        have hwf : foWF fo := h1.1 fo (by simp [hop, opFo])
        split
        · simp [opWF, opFo, hwf, hc]
        · exact h1
      · exact h1
    exact WF_upd hw1 (t := t) (qi := qi) (th' := { th with op := .idle }) (q' := { q with usage := q.usage - 1 })
      opWF_idle (fun fo hf => hw.q qi q hq fo hf) _ rfl rfl
  | own qi q q' th es hq ht ho hl hk hc =>
    refine WF_upd hw (t := q.thr) (th' := th) (qi := qi) (q' := q') (hw.t _ th ht) ?_ _ rfl (set_self ht).symm
    have h1 := hw.q qi q hq
    intro fo hf
    apply h1 fo
    simp only [Q.outstanding, List.mem_append] at hf ⊢
    rcases hc with ⟨hp, _, _, hpe, rfl, rfl⟩ | ⟨fo', rest, m, hp, hb, rfl, rfl⟩ | ⟨hp, hb, rfl, rfl⟩ | ⟨fo', m, hp, rfl, rfl⟩ |
        ⟨fo', m, hp, _, rfl, rfl⟩ | ⟨fo', d, hp, hd, hf', rfl, rfl⟩ | ⟨fo', hp, rfl, rfl⟩ | ⟨hp, _, _, rfl, rfl⟩ | ⟨hp, _, rfl, rfl⟩ |
        ⟨hp, _, _, rfl, rfl⟩ | ⟨hp, _, _, rfl, rfl⟩ | ⟨hp, _, rfl, rfl⟩ <;> simp_all [curFo] <;> grind
  | doneQ qi d q dq th fo c hq ht ho hl hp hd hdq hdi hc =>
    have h1 := hw.q qi q hq
    have hw1 : WF { s with qs := s.qs.set qi { q with phase := .fin fo } } := by
      refine WF_upd hw (t := q.thr) (th' := th) (qi := qi) (q' := { q with phase := .fin fo }) (hw.t _ th ht) ?_ _ rfl (set_self ht).symm
      intro fo' hf
      apply h1 fo'
      simpa [Q.outstanding, curFo, hp] using hf
    have hd1 : ({ s with qs := s.qs.set qi { q with phase := .fin fo } } : St).qs[d]? =
        some (if d = qi then { q with phase := .fin fo } else dq) := by
      simp only [List.getElem?_set]
      by_cases hdi : d = qi
      · subst hdi; simp [lt_of_get hq]
      · rw [if_neg (fun e => hdi e.symm), hdq, if_neg hdi]
    have h2 := hw1.q d _ hd1
    refine WF_upd hw1 (t := q.thr) (qi := d) (th' := { th with op := .got d c })
      (q' := if d = qi then { q with phase := .fin fo, usage := q.usage + 1 } else { dq with usage := dq.usage + 1 }) ?_ ?_ _ rfl rfl
    · subst hc; simp [opWF, opFo, foWF]
    · revert h2; split <;> exact fun h2 => h2
  | fin qi q th fo thr' bad' hq ht ho hl hp hc =>
    have h1 := hw.q qi q hq
    have h2 : ∀ fo' ∈ ({ q with phase := .sig, count := q.count - 1 } : Q).outstanding, foWF fo' := by
      intro fo' hf
      apply h1 fo'
      simp [Q.outstanding, curFo, hp] at hf ⊢; grind
    rcases hc with ⟨_, rfl, _⟩ | ⟨t, tt, hs, htt, hop, rfl, _⟩ | ⟨t, hs, _, rfl, _⟩
    · exact WF_upd hw (t := q.thr) (th' := th) (qi := qi) (hw.t _ th ht) h2 _ rfl (set_self ht).symm
    · refine WF_upd hw (t := t) (th' := { tt with op := .syncWait qi fo true }) (qi := qi) ?_ h2 _ rfl rfl
      have := (hw.t t tt htt).1 fo (by simp [hop, opFo])
      simp [opWF, opFo, this]
    · exact WF_upd hw (t := q.thr) (th' := th) (qi := qi) (hw.t _ th ht) h2 _ rfl (set_self ht).symm
  | sig qi q th thr' hq ht ho hl hp hc =>
    have h1 := hw.q qi q hq
    have h2 : ∀ fo' ∈ ({ q with phase := .next } : Q).outstanding, foWF fo' := by
      intro fo' hf
      apply h1 fo'
      simpa [Q.outstanding, curFo, hp] using hf
    rcases hc with ⟨_, rfl⟩ | ⟨w, tw, fo, htw, hop, rfl⟩
    · exact WF_upd hw (t := q.thr) (th' := th) (qi := qi) (hw.t _ th ht) h2 _ rfl (set_self ht).symm
    · refine WF_upd hw (t := w) (th' := { tw with op := .woken qi fo }) (qi := qi) ?_ h2 _ rfl rfl
      have h3 := hw.t w tw htw
      have hc : fo.compl = false := h3.2.1 qi fo hop
      have hwf : foWF fo := h3.1 fo (by simp [hop, opFo])
      simp [opWF, opFo, hwf, hc]

/-! ### Tokens -/

theorem tot_app {α : Type} (w : α → Nat) (l m : List α) : tot w (l ++ m) = tot w l + tot w m := by
  simp [tot]
theorem tot_nil {α : Type} (w : α → Nat) : tot w [] = 0 := rfl
theorem tot_cons {α : Type} (w : α → Nat) (a : α) (l : List α) : tot w (a :: l) = w a + tot w l := by
  simp [tot]

/-- Change of the counts when one thread, one queue and the log change. -/
theorem Tok_upd {s : St} (hk : Tok s) {qi t : Nat} {q q' : Q} {th th' : Thr} {es : List Ev} {nx : Nat}
    (hq : s.qs[qi]? = some q) (ht : s.thr[t]? = some th)
    (h1 : ∀ n, preT n false th' + tot (evQueued n false) es + tot (evFail n) es + tot (evInl n) es ≤
        preT n false th + (if n = s.next ∧ s.next < nx then 1 else 0))
    (hnx : s.next ≤ nx)
    (h2 : ∀ n c, tot (evQueued n c) es + qWait n c q = tot (evInv n c) es + qWait n c q')
    (h3 : ∀ n c, tot (evInv n c) es + qRun n c q = tot (evRet n c) es + qRun n c q')
    (h4 : ∀ n, tot (evRetDone n) es + qPost n q + preT n true th =
        qPost n q' + preT n true th' + tot (evQueued n true) es + tot (evLocal n) es)
    (s' : St) (hqs : s'.qs = s.qs.set qi q') (hth : s'.thr = s.thr.set t th') (hlog : s'.log = s.log ++ es) (hn : s'.next = nx) :
    Tok s' := by
  constructor
  · intro n
    have a1 := tot_set (preT n false) ht th'
    have a2 := hk.one n
    have a3 := h1 n
    have a4 := hk.fresh n
    rw [hth, hlog]; simp only [tot_app]
    split at a3
    · have := a4 (by omega); omega
    · omega
  · intro n hge
    have a1 := tot_set (preT n false) ht th'
    have a2 := hk.fresh n (by omega)
    have a3 := h1 n
    rw [if_neg (by omega)] at a3
    rw [hth, hlog]; simp only [tot_app]; omega
  · intro n c
    have a1 := tot_set (qWait n c) hq q'
    have a2 := hk.inv n c
    have a3 := h2 n c
    rw [hqs, hlog]; simp only [tot_app]; omega
  · intro n c
    have a1 := tot_set (qRun n c) hq q'
    have a2 := hk.ret n c
    have a3 := h3 n c
    rw [hqs, hlog]; simp only [tot_app]; omega
  · intro n
    have a0 := tot_set (preT n true) ht th'
    have a1 := tot_set (qPost n) hq q'
    have a2 := hk.dn n
    have a3 := h4 n
    rw [hqs, hlog, hth]; simp only [tot_app]; omega

theorem preT_wakeOn (n : Nat) (c : Bool) (o : Option Nat) (th : Thr) : preT n c (wakeOn o th) = preT n c th := by
  unfold wakeOn
  split
  · split
    · rename_i h _; simp [preT, h, preOp]
    · rfl
  · rfl

theorem b2n_and (a b : Bool) : b2n (a && b) = b2n a * b2n b := by cases a <;> cases b <;> rfl
theorem b2n_le (a : Bool) : b2n a ≤ 1 := by cases a <;> simp [b2n]

/-- Only a thread and the log change. -/
theorem Tok_thr {s : St} (hk : Tok s) {t : Nat} {th th' : Thr} {es : List Ev} {nx : Nat}
    (ht : s.thr[t]? = some th)
    (h1 : ∀ n, preT n false th' + tot (evQueued n false) es + tot (evFail n) es + tot (evInl n) es ≤
        preT n false th + (if n = s.next ∧ s.next < nx then 1 else 0))
    (hnx : s.next ≤ nx)
    (h2 : ∀ n c, tot (evQueued n c) es = 0 ∧ tot (evInv n c) es = 0 ∧ tot (evRet n c) es = 0)
    (h4 : ∀ n, tot (evRetDone n) es + preT n true th = preT n true th' + tot (evLocal n) es)
    (s' : St) (hqs : s'.qs = s.qs) (hth : s'.thr = s.thr.set t th') (hlog : s'.log = s.log ++ es) (hn : s'.next = nx) :
    Tok s' := by
  constructor
  · intro n
    have a1 := tot_set (preT n false) ht th'
    have a2 := hk.one n
    have a3 := h1 n
    have a4 := hk.fresh n
    rw [hth, hlog]; simp only [tot_app]
    split at a3
    · have := a4 (by omega); omega
    · omega
  · intro n hge
    have a1 := tot_set (preT n false) ht th'
    have a2 := hk.fresh n (by omega)
    have a3 := h1 n
    rw [if_neg (by omega)] at a3
    rw [hth, hlog]; simp only [tot_app]; omega
  · intro n c
    have a2 := hk.inv n c
    have a3 := h2 n c
    rw [hqs, hlog]; simp only [tot_app]; omega
  · intro n c
    have a2 := hk.ret n c
    have a3 := h2 n c
    rw [hqs, hlog]; simp only [tot_app]; omega
  · intro n
    have a0 := tot_set (preT n true) ht th'
    have a2 := hk.dn n
    have a3 := h4 n
    have a4 := h2 n true
    rw [hqs, hlog, hth]; simp only [tot_app]; omega

theorem Tok_tr {s s' : St} (hu : U s) (hw : WF s) (hk : Tok s) (h : Tr s s') : Tok s' := by
  cases h with
  | skip => exact hk
  | spawn =>
    obtain ⟨h1, h2, h3, h4, h5⟩ := hk
    constructor <;> simp only [tot_append, preT, preOp, Nat.add_zero] <;> assumption
  | create m nb hm =>
    obtain ⟨h1, h2, h3, h4, h5⟩ := hk
    constructor <;> simp only [tot_append, preT, preOp, Nat.add_zero, qWait, qRun, qPost, phRun, phPost, tot_nil] <;> assumption
  | startErr t qi th sy dn rc ht hrc =>
    refine Tok_thr hk ht (th' := th) (es := [.called t qi s.next sy dn, .result t qi s.next sy rc]) (nx := s.next + 1) ?_ (by omega) ?_ ?_ _ rfl (set_self ht).symm (by simp) rfl
    · intro n
      simp only [tot_cons, tot_nil, evQueued, evFail, evInl, b2n, Bool.and_eq_true, beq_iff_eq]
      grind
    · intro n c; simp [tot_cons, tot_nil, evQueued, evInv, evRet]
    · intro n; simp [tot_cons, tot_nil, evLocal, evRetDone]
  | startInl t qi th ht ho hthis ha =>
    refine Tok_thr hk ht (th' := { th with inl := s.next :: th.inl }) (es := [.called t qi s.next true none, .inlined qi s.next]) (nx := s.next + 1) ?_ (by omega) ?_ ?_ _ rfl rfl (by simp) rfl
    · intro n
      simp only [tot_cons, tot_nil, evQueued, evFail, evInl, b2n, beq_iff_eq, preT]
      grind
    · intro n c; simp [tot_cons, tot_nil, evQueued, evInv, evRet]
    · intro n; simp [tot_cons, tot_nil, evLocal, evRetDone, preT]
  | startGot t qi th q fo op ht ho hq hi hn hc hnf hs hsd hself hop =>
    refine Tok_upd hk hq ht (th' := { th with op := op }) (q' := { q with usage := q.usage + 1 }) (es := [.called t qi fo.n fo.sync.isSome fo.done]) (nx := s.next + 1) ?_ (by omega) ?_ ?_ ?_ _ rfl rfl rfl rfl
    · intro n
      simp only [tot_nil, tot_cons, evQueued, evFail, evInl, preT, ho]
      rcases hop with rfl | ⟨rc, h1, h2, rfl⟩ <;> simp only [preOp, hn, hc, b2n, Bool.and_eq_true, beq_iff_eq] <;> grind
    · intro n c; simp [tot_nil, tot_cons, evQueued, evInv, qWait]
    · intro n c; simp [tot_nil, tot_cons, evRet, evInv, qRun]
    · intro n
      simp only [tot_nil, tot_cons, evRetDone, evQueued, evLocal, preT, ho, qPost]
      rcases hop with rfl | ⟨rc, h1, h2, rfl⟩ <;> simp [preOp, hc, b2n]
  | addOk t qi th q fo ht ho hq hgd =>
    have hwf : foWF fo := (hw.t t th ht).1 fo (by rcases ho with ho | ho <;> simp [ho, opFo])
    have hp : ∀ n c, preT n c th = foIs n c fo := by
      intro n c; rcases ho with ho | ho <;> simp [preT, ho, preOp, foIs]
    have hp' : ∀ n c, preT n c { th with op := if fo.sync.isSome then .syncWait qi fo false else .put qi fo .ok } = 0 := by
      intro n c; simp only [preT]; split <;> simp [preOp, b2n]
    refine Tok_upd hk hq ht (th' := { th with op := if fo.sync.isSome then .syncWait qi fo false else .put qi fo .ok })
      (q' := { q with pend := q.pend ++ [fo], count := q.count + 1 }) (es := [.queued qi fo.n fo.compl]) (nx := s.next) ?_ (by omega) ?_ ?_ ?_ _ rfl rfl rfl rfl
    · intro n
      rw [hp, hp']
      simp [tot_cons, tot_nil, evQueued, evFail, evInl, foIs]
    · intro n c; simp [tot_cons, tot_nil, evQueued, evInv, qWait, tot_app, foIs]; omega
    · intro n c; simp [tot_cons, tot_nil, evRet, evInv, qRun]
    · intro n; rw [hp, hp']; simp [tot_cons, tot_nil, evQueued, evLocal, evRetDone, qPost, foIs]
  | addErr t qi th q fo rc ht ho hq hrc hww hei hwk =>
    have hwf : foWF fo := (hw.t t th ht).1 fo (by rcases ho with ho | ho <;> simp [ho, opFo])
    have hp : ∀ n c, preT n c th = foIs n c fo := by
      intro n c; rcases ho with ho | ho <;> simp [preT, ho, preOp, foIs]
    have hp' : ∀ n c, preT n c { th with op := .put qi fo rc } = foIs n c fo := by
      intro n c
      have : (rc != Rc.ok) = true := by simpa using hrc
      simp [preT, preOp, foIs, this]
    refine Tok_thr hk ht (th' := { th with op := .put qi fo rc }) (es := []) (nx := s.next) ?_ (by omega) ?_ ?_ _ rfl rfl (by simp) rfl
    · intro n; rw [hp, hp']; simp [tot_nil]
    · intro n c; simp [tot_nil]
    · intro n; rw [hp, hp']; simp [tot_nil]
  | addSleep t qi th q fo ht ho hq hww hnb =>
    have hp : ∀ n c, preT n c th = foIs n c fo := by
      intro n c; rcases ho with ho | ho <;> simp [preT, ho, preOp, foIs]
    have hp' : ∀ n c, preT n c { th with op := .asleep qi fo } = foIs n c fo := by
      intro n c; simp [preT, preOp, foIs]
    refine Tok_thr hk ht (th' := { th with op := .asleep qi fo }) (es := []) (nx := s.next) ?_ (by omega) ?_ ?_ _ rfl rfl (by simp) rfl
    · intro n; rw [hp, hp']; simp [tot_nil]
    · intro n c; simp [tot_nil]
    · intro n; rw [hp, hp']; simp [tot_nil]
  | wake t qi th fo ht ho =>
    refine Tok_thr hk ht (th' := { th with op := .woken qi fo }) (es := []) (nx := s.next) ?_ (by omega) ?_ ?_ _ rfl rfl (by simp) rfl
    · intro n; simp [tot_nil, preT, ho, preOp]
    · intro n c; simp [tot_nil]
    · intro n; simp [tot_nil, preT, ho, preOp]
  | syncRet t qi th fo ht ho =>
    refine Tok_thr hk ht (th' := { th with op := .put qi fo .ok }) (es := []) (nx := s.next) ?_ (by omega) ?_ ?_ _ rfl rfl (by simp) rfl
    · intro n; simp [tot_nil, preT, ho, preOp, b2n]
    · intro n c; simp [tot_nil]
    · intro n; simp [tot_nil, preT, ho, preOp, b2n]
  | put t qi th q fo rc ht ho hq =>
    have hwf := hw.t t th ht
    have hcr : fo.compl = true → rc = .ok := by
      intro hc
      cases hr : decide (rc = .ok)
      · have := hwf.2.2.2 qi fo rc ho (by simpa using hr)
        rw [hc] at this; simp at this
      · simpa using hr
    refine Tok_upd hk hq ht (th' := { th with op := .idle }) (q' := { q with usage := q.usage - 1 })
      (es := if fo.compl then [] else [.result t qi fo.n fo.sync.isSome rc]) (nx := s.next) ?_ (by omega) ?_ ?_ ?_ _ rfl rfl ?_ rfl
    · intro n
      cases hc : fo.compl <;> simp [tot_nil, tot_cons, preT, ho, preOp, evQueued, evFail, evInl, hc]
    · intro n c; cases hc : fo.compl <;> simp [tot_cons, tot_nil, evQueued, evInv, qWait]
    · intro n c; cases hc : fo.compl <;> simp [tot_cons, tot_nil, evRet, evInv, qRun]
    · intro n
      cases hc : fo.compl
      · simp [tot_cons, tot_nil, evQueued, evLocal, evRetDone, qPost, preT, preOp, ho, hc, b2n]
      · simp [tot_cons, tot_nil, evQueued, evLocal, evRetDone, qPost, preT, preOp, ho, hcr hc, b2n]
    · split <;> simp
  | inlRet t qi n rest th ht ho hl hthis =>
    refine Tok_thr hk ht (th' := { th with inl := rest }) (es := [.inlineRet qi n, .result t qi n true .ok]) (nx := s.next) ?_ (by omega) ?_ ?_ _ rfl rfl (by simp) rfl
    · intro n; simp [tot_nil, tot_cons, preT, evQueued, evFail, evInl, b2n]
    · intro n c; simp [tot_nil, tot_cons, evQueued, evInv, evRet]
    · intro n; simp [tot_nil, tot_cons, preT, evLocal, evRetDone]
  | dgot t qi th q ht ho hq hi =>
    refine Tok_upd hk hq ht (th' := { th with op := .dgot qi }) (q' := { q with usage := q.usage + 1 }) (es := []) (nx := s.next) ?_ (by omega) ?_ ?_ ?_ _ rfl rfl (by simp) rfl
    all_goals intros; simp [tot_nil, preT, preOp, ho, qWait, qRun, qPost]
  | dset t qi th q ht ho hq =>
    refine Tok_upd hk hq ht (th' := { th with op := .dterm qi }) (q' := { q with term := true }) (es := []) (nx := s.next) ?_ (by omega) ?_ ?_ ?_ _ rfl rfl (by simp) rfl
    all_goals intros; simp [tot_nil, preT, preOp, ho, qWait, qRun, qPost]
  | dput t qi th q ht ho hq =>
    have hm : ∀ n c, tot (preT n c) (s.thr.map (wakeOn th.this)) = tot (preT n c) s.thr :=
      fun n c => tot_map _ _ _ fun a _ => preT_wakeOn n c _ a
    have hk1 : Tok { s with thr := s.thr.map (wakeOn th.this) } := by
      obtain ⟨h1, h2, h3, h4, h5⟩ := hk
      constructor <;> simp only [hm] <;> assumption
    have ht1 : (s.thr.map (wakeOn th.this))[t]? = some th := by
      simp [ht, wakeOn, ho]
    refine Tok_upd hk1 (t := t) (th := th) hq ht1 (th' := { th with op := .idle }) (q' := { q with usage := q.usage - 1 }) (es := []) (nx := s.next) ?_ (by simp) ?_ ?_ ?_ _ rfl rfl (by simp) rfl
    all_goals intros; simp [tot_nil, preT, preOp, ho, qWait, qRun, qPost]
  | own qi q q' th es hq ht ho hl hkk hc =>
    have hwq := hw.q qi q hq
    refine Tok_upd hk hq ht (th' := th) (q' := q') (es := es) (nx := s.next) ?_ (by omega) ?_ ?_ ?_ _ rfl (set_self ht).symm rfl rfl
    all_goals
      rcases hc with ⟨hp, _, _, hpe, rfl, rfl⟩ | ⟨fo', rest, m, hp, hb, rfl, rfl⟩ | ⟨hp, hb, rfl, rfl⟩ | ⟨fo', m, hp, rfl, rfl⟩ |
        ⟨fo', m, hp, hdm, rfl, rfl⟩ | ⟨fo', d, hp, hd, hf', rfl, rfl⟩ | ⟨fo', hp, rfl, rfl⟩ | ⟨hp, _, _, rfl, rfl⟩ | ⟨hp, _, rfl, rfl⟩ |
        ⟨hp, _, _, rfl, rfl⟩ | ⟨hp, _, _, rfl, rfl⟩ | ⟨hp, _, rfl, rfl⟩
    all_goals intros
    all_goals try (simp [tot_nil, tot_cons, qWait, qRun, qPost, phRun, phPost, foIs, evQueued, evFail, evInl, evInv, evRet, evLocal, evRetDone, *]; done)
    · have hb : q.batch = [] := (hu.st qi q hq).2.2.2 hp
      simp [tot_nil, qWait, hb]
    · simp [tot_nil, tot_cons, evQueued, evInv, qWait, hb, foIs]; omega
    · have hwf := hwq fo' (by simp [Q.outstanding, hp, curFo])
      cases hc : fo'.compl
      · cases m
        · cases hd : fo'.done <;>
            simp [tot_nil, tot_cons, evQueued, evLocal, evRetDone, qPost, hp, hd, phPost, b2n] <;> omega
        · simp [tot_nil, tot_cons, evQueued, evLocal, evRetDone, qPost, hp, phPost]
      · have := (hwf.1 hc).2.1
        simp [tot_nil, tot_cons, evQueued, evLocal, evRetDone, qPost, hp, this]
        cases m <;> simp [phPost, this, b2n]
    · rcases hdm with hdm | rfl
      · cases m <;> simp [tot_nil, qPost, hp, phPost, hdm, b2n]
      · simp [tot_nil, qPost, hp, phPost]
    · simp [tot_nil, tot_cons, evQueued, evLocal, evRetDone, qPost, hp, hd, phPost, b2n]; omega
  | doneQ qi d q dq th fo c hq ht ho hl hp hd hdq hdi hc =>
    have hwq := hw.q qi q hq fo (by simp [Q.outstanding, hp, curFo])
    have hfc : fo.compl = false := by
      cases hc : fo.compl
      · rfl
      · have := (hwq.1 hc).2.1; rw [this] at hd; simp at hd
    have hk1 : Tok { s with qs := s.qs.set qi { q with phase := .fin fo }, thr := s.thr.set q.thr { th with op := .got d c } } := by
      refine Tok_upd hk hq ht (th' := { th with op := .got d c }) (q' := { q with phase := .fin fo }) (es := []) (nx := s.next) ?_ (by omega) ?_ ?_ ?_ _ rfl rfl (by simp) rfl
      · intro n; subst hc; simp [tot_nil, preT, preOp, b2n]
      · intro n c; simp [tot_nil, qWait]
      · intro n c; simp [tot_nil, qRun, hp, phRun]
      · intro n; subst hc; simp [tot_nil, qPost, hp, hd, phPost, preT, preOp, ho]
    have hd1 : (s.qs.set qi { q with phase := .fin fo })[d]? = some (if d = qi then { q with phase := .fin fo } else dq) := by
      simp only [List.getElem?_set]
      by_cases hdi : d = qi
      · subst hdi; simp [lt_of_get hq]
      · rw [if_neg (fun e => hdi e.symm), hdq, if_neg hdi]
    have ht1 : (s.thr.set q.thr { th with op := .got d c })[q.thr]? = some { th with op := .got d c } := by
      rw [List.getElem?_set_self (lt_of_get ht)]
    refine Tok_upd hk1 hd1 ht1 (th' := { th with op := .got d c })
      (q' := if d = qi then { q with phase := .fin fo, usage := q.usage + 1 } else { dq with usage := dq.usage + 1 }) (es := []) (nx := s.next)
      ?_ (by simp) ?_ ?_ ?_ _ rfl (by simp) (by simp) rfl
    · intro n; simp [tot_nil]
    · intro n c; split <;> simp [tot_nil, qWait]
    · intro n c; split <;> simp [tot_nil, qRun]
    · intro n; split <;> simp [tot_nil, qPost]
  | fin qi q th fo thr' bad' hq ht ho hl hp hc =>
    rcases hc with ⟨_, rfl, _⟩ | ⟨t, tt, hs, htt, hop, rfl, _⟩ | ⟨t, hs, _, rfl, _⟩
    · refine Tok_upd hk hq ht (th' := th) (q' := { q with phase := .sig, count := q.count - 1 }) (es := [.finished qi fo.n fo.compl]) (nx := s.next)
        ?_ (by omega) ?_ ?_ ?_ _ rfl (set_self ht).symm rfl rfl
      all_goals intros; simp [tot_nil, tot_cons, evQueued, evFail, evInl, evInv, evRet, evRetDone, evLocal, qWait, qRun, qPost, phRun, phPost, hp]
    · refine Tok_upd hk hq htt (th' := { tt with op := .syncWait qi fo true }) (q' := { q with phase := .sig, count := q.count - 1 }) (es := [.finished qi fo.n fo.compl]) (nx := s.next)
        ?_ (by omega) ?_ ?_ ?_ _ rfl rfl rfl rfl
      all_goals intros; simp [tot_nil, tot_cons, evQueued, evFail, evInl, evInv, evRet, evRetDone, evLocal, qWait, qRun, qPost, phRun, phPost, hp, preT, preOp, hop]
    · refine Tok_upd hk hq ht (th' := th) (q' := { q with phase := .sig, count := q.count - 1 }) (es := [.finished qi fo.n fo.compl]) (nx := s.next)
        ?_ (by omega) ?_ ?_ ?_ _ rfl (set_self ht).symm rfl rfl
      all_goals intros; simp [tot_nil, tot_cons, evQueued, evFail, evInl, evInv, evRet, evRetDone, evLocal, qWait, qRun, qPost, phRun, phPost, hp]
  | sig qi q th thr' hq ht ho hl hp hc =>
    rcases hc with ⟨_, rfl⟩ | ⟨w, tw, fo, htw, hop, rfl⟩
    · refine Tok_upd hk hq ht (th' := th) (q' := { q with phase := .next }) (es := []) (nx := s.next)
        ?_ (by omega) ?_ ?_ ?_ _ rfl (set_self ht).symm (by simp) rfl
      all_goals intros; simp [tot_nil, qWait, qRun, qPost, phRun, phPost, hp]
    · refine Tok_upd hk hq htw (th' := { tw with op := .woken qi fo }) (q' := { q with phase := .next }) (es := []) (nx := s.next)
        ?_ (by omega) ?_ ?_ ?_ _ rfl rfl (by simp) rfl
      all_goals intros; simp [tot_nil, qWait, qRun, qPost, phRun, phPost, hp, preT, preOp, hop]

theorem Tok_init : Tok init := by
  constructor <;> simp [init, tot_nil]

theorem WF_init : WF init := by
  constructor <;> simp [init]

end Verif.Mpq
