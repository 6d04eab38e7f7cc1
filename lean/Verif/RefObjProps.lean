import Verif.RefObjInv
/-
  Properties of one reference object used by any number of threads (C34, C35, C36, C43, C96, C97).
  A run is a list of actions (calls and single steps of any thread) from the freshly created object.
-/
namespace Verif.RefObj

/-- A destroy call has returned 0. -/
def Destroyed (s : St) : Prop := ∃ i del, (i, Call.destroy del, Ret.ok) ∈ s.log
/-- A destroy call with delete has returned 0. -/
def Deleted (s : St) : Prop := ∃ i, (i, Call.destroy true, Ret.ok) ∈ s.log
/-- No thread is inside an API call on the object (so no thread has a reference). -/
def Idle (s : St) : Prop := ∀ t ∈ s.ths, t.stack = []

theorem destroyed_flag {cfg : Cfg} {s : St} (h : Inv cfg s) (hd : Destroyed s) : s.destroyed = true := by
  obtain ⟨i, del, hm⟩ := hd
  cases del
  · have h1 : 0 < s.log.countP isMarkOk := List.countP_pos_iff.mpr ⟨_, hm, rfl⟩
    have := h.mark
    cases hf : s.destroyed
    · rw [hf] at this; simp only [Bool.false_eq_true, if_false] at this; omega
    · rfl
  · exact h.log (List.countP_pos_iff.mpr ⟨_, hm, rfl⟩)

theorem deleted_gone {cfg : Cfg} {s : St} (h : Inv cfg s) (hd : Deleted s) : s.installed = false ∧ s.initRef = false := by
  obtain ⟨i, hm⟩ := hd
  have h1 : 0 < s.log.countP isDelOk := List.countP_pos_iff.mpr ⟨_, hm, rfl⟩
  have h2 := h.one
  have hin : s.installed = false := by
    cases hb : s.installed
    · rfl
    · rw [hb] at h2; simp only [if_true] at h2; omega
  refine ⟨hin, ?_⟩
  rw [hin] at h2
  have h3 := h.pend
  cases hr : s.initRef
  · rfl
  · rw [hin, hr] at h3
    simp only [and_self, if_true, Bool.false_eq_true, if_false] at h2 h3
    have : tot Fr.pend s.ths ≤ tot Fr.delAct s.ths := by
      unfold tot
      clear h2 h3
      induction s.ths with
      | nil => simp
      | cons a l ih =>
        simp only [List.map_cons, List.sum_cons]
        have := pend_spin_le a.stack; omega
    omega

/-- C34: no run uses the object after it was freed, or drops a reference nobody has. -/
theorem C34_no_use_after_free (cfg : Cfg) (n : Nat) (l : List Act) : (St.init n).run cfg l ≠ .ub := by
  have : ∀ (s : St), Inv cfg s → s.run cfg l ≠ .ub := by
    induction l with
    | nil => intro s _; simp [St.run]
    | cons a l ih =>
      intro s hI
      simp only [St.run]
      have key : s.step cfg a ≠ .ub := by
        cases a with
        | call i c =>
          simp only [St.step]
          split
          · simp
          · rename_i t hi
            simp only [St.call]
            split
            · split
              · rename_i hin
                have h1 := hI.inst hin
                have h2 := hI.us
                rw [if_pos h1] at h2
                have h3 := hI.fr
                split
                · rename_i hf; exact absurd (h3.mp hf) (by omega)
                · simp
              · simp
            · simp
        | go i =>
          simp only [St.step]
          split
          · simp
          · rename_i t hi
            split
            · simp
            · rename_i f fs hst
              have hl := live hI hi hst
              rw [hl.1]
              simp only [Bool.false_eq_true, if_false]
              have hput : ∀ (x : St) (j : Nat), x.usage = s.usage → x.put j ≠ .ub := by
                intro x j hx
                simp only [St.put]
                split
                · rename_i h0; exact absurd (hx ▸ h0) hl.2
                · split <;> simp
              cases f with
              | dAfter del own err =>
                simp only [St.frame]
                split
                · exact hput _ _ rfl
                · simp
              | fin c r => exact hput _ _ rfl
              | rdCb b => cases b <;> simp [St.frame]
              | wrWait b => cases b <;> simp only [St.frame] <;> split <;> simp
              | _ => simp only [St.frame] <;> (repeat' split) <;> simp
      cases h1 : s.step cfg a with
      | ok s1 => exact ih s1 (step_inv hI h1)
      | no => simp
      | abort => simp
      | ub => exact absurd h1 key
  exact this _ (inv_init cfg n)

/-- C34: the destructor runs at most once; never while the object can still be found or a thread is inside a
    call that has a reference; and it has run once the object was deleted and all calls are over. -/
theorem C34_destructor (cfg : Cfg) (n : Nat) (l : List Act) (s : St) (hr : (St.init n).run cfg l = .ok s) :
    s.dtor ≤ 1 ∧
    ((∃ t ∈ s.ths, t.stack ≠ []) → s.dtor = 0) ∧
    (s.installed = true → s.dtor = 0) ∧
    (Deleted s → Idle s → s.dtor = 1) := by
  have hI := run_inv (inv_init cfg n) hr
  have hd := hI.dt; have hf := hI.fr; have hu := hI.us
  have h0 : s.usage ≠ 0 → s.dtor = 0 := by
    intro h
    rw [hd]; split
    · rename_i hh; exact absurd (hf.mp hh) h
    · rfl
  refine ⟨by rw [hd]; split <;> omega, ?_, ?_, ?_⟩
  · rintro ⟨t, ht, hne⟩
    obtain ⟨i, hi⟩ := List.getElem?_of_mem ht
    apply h0
    have h1 := tot_pos anyFr hi
    rw [countP_any] at h1
    have : 0 < t.stack.length := List.length_pos_iff.mpr hne
    omega
  · intro hin
    apply h0
    rw [if_pos (hI.inst hin)] at hu; omega
  · intro hdel hidle
    have h1 := (deleted_gone hI hdel).2
    have h2 : tot anyFr s.ths = 0 := by
      unfold tot
      have : ∀ l : List Th, (∀ t ∈ l, t.stack = []) → (l.map fun t => t.stack.countP anyFr).sum = 0 := by
        intro l hl
        induction l with
        | nil => rfl
        | cons a l ih =>
          simp only [List.map_cons, List.sum_cons, hl a (by simp)]
          simp only [List.countP_nil, Nat.zero_add]
          exact ih (fun t ht => hl t (by simp [ht]))
      exact this _ hidle
    rw [h1, h2] at hu
    have : s.freed = true := hf.mpr (by simpa using hu)
    rw [hd, this]; rfl

/-- C35: when a destroy call has returned 0, no thread is inside a read or write callback, nor (unless the object
    is of the asynchronous kind) inside a function a queue runs with the object.  As the state is any later state,
    none will ever be. -/
theorem C35_no_callback (cfg : Cfg) (n : Nat) (l : List Act) (s : St) (hr : (St.init n).run cfg l = .ok s)
    (hd : Destroyed s) (t : Th) (ht : t ∈ s.ths) :
    (∀ b, Fr.rdCb b ∉ t.stack ∧ Fr.wrCb b ∉ t.stack) ∧ (cfg.async = false → Fr.qCb ∉ t.stack) := by
  have hI := run_inv (inv_init cfg n) hr
  obtain ⟨i, hi⟩ := List.getElem?_of_mem ht
  have h := (hI.th i t hi).dst (destroyed_flag hI hd)
  refine ⟨fun b => ⟨fun hm => ?_, fun hm => ?_⟩, fun ha hm => ?_⟩
  · have := h _ hm; simp [Fr.afterOk] at this
  · have := h _ hm; simp [Fr.afterOk] at this
  · have := h _ hm; simp [Fr.afterOk, ha] at this

/-- C35: of all the calls of a run at most one deletes, and at most one marks, successfully. -/
theorem C35_once (cfg : Cfg) (n : Nat) (l : List Act) (s : St) (hr : (St.init n).run cfg l = .ok s) :
    s.log.countP (fun e => e.2 = (.destroy true, .ok)) ≤ 1 ∧
    s.log.countP (fun e => e.2 = (.destroy false, .ok)) ≤ 1 := by
  have hI := run_inv (inv_init cfg n) hr
  have e1 : s.log.countP (fun e => e.2 = (.destroy true, .ok)) = s.log.countP isDelOk := by
    congr 1; funext e; obtain ⟨a, b, c⟩ := e; simp [isDelOk, Bool.decide_and, Bool.beq_eq_decide_eq]
  have e2 : s.log.countP (fun e => e.2 = (.destroy false, .ok)) = s.log.countP isMarkOk := by
    congr 1; funext e; obtain ⟨a, b, c⟩ := e; simp [isMarkOk, Bool.decide_and, Bool.beq_eq_decide_eq]
  rw [e1, e2]
  have h1 := hI.one; have h2 := hI.mark
  constructor
  · split at h1 <;> omega
  · split at h2 <;> omega

/-- C35: after a delete has returned 0, every call on the handle returns at once with an error (a function run by
    a queue gets the free-only object), and nothing else happens. -/
theorem C35_after_delete (cfg : Cfg) (n : Nat) (l : List Act) (s : St) (hr : (St.init n).run cfg l = .ok s)
    (hd : Deleted s) (i : Nat) (c : Call) (s' : St) (hs : s.step cfg (.call i c) = .ok s') :
    ∃ r, s' = { s with log := (i, c, r) :: s.log } ∧ r ≠ .ok ∧ (c = .qfunc → r = .freeOnly) := by
  have hI := run_inv (inv_init cfg n) hr
  have h1 := (deleted_gone hI hd).1
  simp only [St.step] at hs
  split at hs
  · cases hs
  · rename_i t hi
    simp only [St.call, h1, Bool.false_eq_true, if_false] at hs
    split at hs
    · cases hs
      refine ⟨missing c, ?_, by cases c <;> simp [missing], by rintro rfl; rfl⟩
      simp [h1]
    · cases hs

/-- C36: while one thread is inside a write callback, no other thread is inside a read or write callback, nor
    (unless the object is asynchronous) inside a function a queue runs with the object. -/
theorem C36_exclusion (cfg : Cfg) (n : Nat) (l : List Act) (s : St) (hr : (St.init n).run cfg l = .ok s)
    (i j : Nat) (t u : Th) (hi : s.ths[i]? = some t) (hj : s.ths[j]? = some u) (hij : j ≠ i) (b : Bool)
    (hw : Fr.wrCb b ∈ t.stack) :
    (∀ c, Fr.wrCb c ∉ u.stack ∧ Fr.rdCb c ∉ u.stack) ∧ (cfg.async = false → Fr.qCb ∉ u.stack) := by
  have hI := run_inv (inv_init cfg n) hr
  have h1 := mem_countP (p := Fr.isW) hw rfl
  have h2 := (hI.th i t hi).rw
  have hw' : t.rawW = true := by
    cases hb : t.rawW
    · rw [hb] at h2; simp only [Bool.false_eq_true, if_false] at h2; omega
    · rfl
  have h3 := ((hI.excl hi).1 hw').2 j u hij hj
  have h := free_after (hI.th j u hj) h3.1 h3.2
  refine ⟨fun b => ⟨fun hm => ?_, fun hm => ?_⟩, fun ha hm => ?_⟩
  · have := h _ hm; simp [Fr.afterOk] at this
  · have := h _ hm; simp [Fr.afterOk] at this
  · have := h _ hm; simp [Fr.afterOk, ha] at this

/-- The abort after an upgrade (kernel/refobj.c:637-643, "should not happen obviously") does not happen. -/
theorem C36_no_upgrade_abort (cfg : Cfg) (n : Nat) (l : List Act) (s : St) (hr : (St.init n).run cfg l = .ok s)
    (i : Nat) (t : Th) (fs : List Fr) (hi : s.ths[i]? = some t) (hst : t.stack = .wrChk true :: fs) :
    s.destroyed = false := by
  have hI := run_inv (inv_init cfg n) hr
  have hT := (top_iff hst).mp (hI.th i t hi)
  have := hT.lc.1 rfl
  cases hd : s.destroyed
  · rfl
  · exact absurd (after_q (hT.dst hd).2 this.2) (by rw [this.1]; simp)

/-- C43: once a destroy call has returned 0, no step starts a function with the object: the number of functions
    running with the object never grows, on any thread. -/
theorem C43_free_only (cfg : Cfg) (n : Nat) (l : List Act) (s : St) (hr : (St.init n).run cfg l = .ok s)
    (hd : Destroyed s) (a : Act) (s' : St) (hs : s.step cfg a = .ok s') (i : Nat) (t t' : Th)
    (hi : s.ths[i]? = some t) (hi' : s'.ths[i]? = some t') :
    t'.stack.countP (· == .qCb) ≤ t.stack.countP (· == .qCb) := by
  have hI := run_inv (inv_init cfg n) hr
  have hf := destroyed_flag hI hd
  have kput : ∀ (x y : St) (j : Nat), x.put j = .ok y → y.ths = x.ths := by
    intro x y j h
    simp only [St.put] at h
    split at h
    · cases h
    · split at h <;> cases h <;> rfl
  have kset : ∀ (k : Nat) (u u' : Th), s.ths[k]? = some u → s'.ths = s.ths.set k u' →
      u'.stack.countP (· == .qCb) ≤ u.stack.countP (· == .qCb) →
      t'.stack.countP (· == .qCb) ≤ t.stack.countP (· == .qCb) := by
    intro k u u' hk he hc
    rw [he, get_set hk] at hi'
    by_cases hik : i = k
    · subst hik
      rw [hi] at hk; cases hk
      simp at hi'; subst hi'; exact hc
    · simp [hik] at hi'; rw [hi] at hi'; cases hi'; exact Nat.le_refl _
  cases a with
  | call k c =>
    simp only [St.step] at hs
    split at hs
    · cases hs
    · rename_i u hk
      simp only [St.call] at hs
      split at hs
      · split at hs
        · split at hs
          · cases hs
          · cases hs
            refine kset k u _ hk rfl ?_
            cases c <;> simp [getFrame]
        · cases hs
          simp only at hi'; rw [hi] at hi'; cases hi'; exact Nat.le_refl _
      · cases hs
  | go k =>
    simp only [St.step] at hs
    split at hs
    · cases hs
    · rename_i u hk
      split at hs
      · cases hs
      · rename_i f fs hst
        split at hs
        · cases hs
        · have key : ∃ u', s'.ths = s.ths.set k u' ∧ u'.stack.countP (· == .qCb) ≤ u.stack.countP (· == .qCb) := by
            rw [hst]
            cases f with
            | dAfter del own err =>
              simp only [St.frame] at hs
              split at hs
              · have := kput _ _ _ hs
                refine ⟨_, this, ?_⟩
                simp only [List.countP_cons]
                split <;> simp
              · cases hs; exact ⟨_, rfl, by simp⟩
            | fin c r =>
              have := kput _ _ _ hs
              exact ⟨_, this, by simp⟩
            | qChk =>
              simp only [St.frame, hf, if_true] at hs
              cases hs; exact ⟨_, rfl, by simp⟩
            | rdCb b => cases b <;> simp only [St.frame] at hs <;> cases hs <;> exact ⟨_, rfl, by simp⟩
            | wrWait b =>
              cases b <;> simp only [St.frame] at hs <;> split at hs <;> cases hs <;> exact ⟨_, rfl, by simp⟩
            | _ =>
              simp only [St.frame] at hs
              repeat' split at hs
              all_goals first
                | (cases hs; done)
                | (cases hs; exact ⟨_, rfl, by simp [List.countP_cons]⟩)
          obtain ⟨u', h1, h2⟩ := key
          exact kset k u u' hk h1 h2

/-- C97: with caller_free (and not modify_async), the destructor runs on the thread that called destroy with
    delete: it has run on no other thread, and when that thread has left its calls it has run. -/
theorem C97_caller_free (cfg : Cfg) (hc : cfg.callerFree = true) (ha : cfg.async = false) (n : Nat) (l : List Act)
    (s : St) (hr : (St.init n).run cfg l = .ok s) :
    (∀ j, s.dtorBy = some j → s.deleter = some j) ∧
    (Deleted s → ∀ i t, s.deleter = some i → s.ths[i]? = some t → t.stack = [] → s.dtor = 1) := by
  have hI := run_inv (inv_init cfg n) hr
  refine ⟨fun j hj => hI.by_ j hj hc ha, ?_⟩
  intro hdel i t hd hi hst
  have hg := deleted_gone hI hdel
  have hsp : tot Fr.isSpin s.ths = 0 := by
    obtain ⟨k, hm⟩ := hdel
    have h1 : 0 < s.log.countP isDelOk := List.countP_pos_iff.mpr ⟨_, hm, rfl⟩
    have h2 := hI.one
    rw [hg.1] at h2
    simp only [Bool.false_eq_true, if_false] at h2
    have : tot Fr.isSpin s.ths ≤ tot Fr.delAct s.ths := by
      unfold tot
      clear h2
      induction s.ths with
      | nil => simp
      | cons a l ih =>
        simp only [List.map_cons, List.sum_cons]
        have := pend_spin_le a.stack; omega
    omega
  have hl := hI.late hc ha hg.2 hsp
  have hidle : Idle s := by
    intro u hu
    obtain ⟨j, hj⟩ := List.getElem?_of_mem hu
    cases hst2 : u.stack with
    | nil => rfl
    | cons f fs =>
      have := hl j u hj (by rw [hst2]; simp)
      rw [hd] at this; cases this
      rw [hi] at hj; cases hj; rw [hst] at hst2; simp at hst2
  exact (C34_destructor cfg n l s hr).2.2.2 hdel hidle

/-! ### C96: self-deadlocks are detected -/

/-- C96, what holds: a thread that destroys the object inside its own read callback, or inside a function a queue
    runs with a synchronous object, is stopped by abort. -/
theorem C96_abort_partial (cfg : Cfg) (n : Nat) (l : List Act) (s : St) (hr : (St.init n).run cfg l = .ok s)
    (i : Nat) (t : Th) (del : Bool) (fs : List Fr) (hi : s.ths[i]? = some t) (hst : t.stack = .dGot del :: fs)
    (hin : (∃ b, Fr.rdCb b ∈ fs) ∨ (cfg.async = false ∧ Fr.qCb ∈ fs)) :
    s.step cfg (.go i) = .abort := by
  have hI := run_inv (inv_init cfg n) hr
  have hl := live hI hi hst
  have hT := (top_iff hst).mp (hI.th i t hi)
  simp only [St.step, hi, hst, hl.1, Bool.false_eq_true, if_false, St.frame]
  by_cases hq : cfg.async = false ∧ Fr.qCb ∈ fs
  · have : ({ t with stack := fs } : Th).onQ = true := (onQ_iff _).mpr hq.2
    simp [this, hq.1]
  · rcases hin with ⟨b, hb⟩ | h
    · have hb' : Fr.rdCb true ∈ fs := by
        cases b
        · exfalso; apply hq
          have hw := hT.wf
          clear hT hst hq
          induction fs with
          | nil => simp at hb
          | cons g l ih =>
            rcases List.mem_cons.mp hb with rfl | hm
            · have := hw.2.1.1 rfl; exact ⟨this.1, by simp [this.2]⟩
            · have := ih hm hw.2.2; exact ⟨this.1, by simp [this.2]⟩
        · exact hb
      have h1 := mem_countP (p := Fr.isRd) hb' rfl
      have h2 := hT.rd
      have h3 : (t.rd != 0) = true := by simp only [bne_iff_ne]; omega
      rw [h3]
      split <;> simp
    · exact absurd h hq

/-- The run of C96_self_deadlock: thread 0 takes the write lock and destroys the object in the callback. -/
def deadRun (del : Bool) : List Act :=
  [.call 0 .write, .go 0, .go 0, .go 0, .call 0 (.destroy del), .go 0, .go 0]

def deadSt (del : Bool) : St :=
  ⟨[⟨[.dWait del 0, .wrCb false], 0, true, 0, 0, true⟩, Th.init], !del, true, 3, false, false, 0, none,
    if del then some 0 else none, []⟩

/-- C96 is false for the write callback: a thread that destroys the object inside its own write callback is not
    stopped; it waits for itself, and whatever the others do it waits forever. -/
theorem C96_self_deadlock (del : Bool) : ∃ s, (St.init 2).run ⟨false, false, false⟩ (deadRun del) = .ok s ∧
    s.ths[0]?.map (·.stack) = some [.dWait del 0, .wrCb false] ∧
    ∀ l s', s.run ⟨false, false, false⟩ l = .ok s' →
      s'.ths[0]?.map (·.stack) = some [.dWait del 0, .wrCb false] := by
  refine ⟨deadSt del, by cases del <;> rfl, rfl, ?_⟩
  have key : ∀ (l : List Act) (s s' : St), Inv ⟨false, false, false⟩ s →
      s.ths[0]?.map (·.stack) = some [.dWait del 0, .wrCb false] → s.run ⟨false, false, false⟩ l = .ok s' →
      s'.ths[0]?.map (·.stack) = some [.dWait del 0, .wrCb false] := by
    intro l
    induction l with
    | nil => intro s s' _ h hr; simp only [St.run] at hr; cases hr; exact h
    | cons a l ih =>
      intro s s' hI h hr
      simp only [St.run] at hr
      cases h1 : s.step ⟨false, false, false⟩ a with
      | ok s1 =>
        rw [h1] at hr
        refine ih s1 s' (step_inv hI h1) ?_ hr
        obtain ⟨t, ht, hst⟩ : ∃ t, s.ths[0]? = some t ∧ t.stack = [.dWait del 0, .wrCb false] := by
          cases h0 : s.ths[0]? with
          | none => rw [h0] at h; simp at h
          | some t => rw [h0] at h; simp at h; exact ⟨t, rfl, h⟩
        have hw : t.rawW = true := by
          have := (hI.th 0 t ht).rw
          rw [hst] at this
          cases hb : t.rawW
          · rw [hb] at this; simp [List.countP_cons, Fr.isW] at this
          · rfl
        have kput : ∀ (x y : St) (j : Nat), x.put j = .ok y → y.ths = x.ths := by
          intro x y j h
          simp only [St.put] at h
          split at h
          · cases h
          · split at h <;> cases h <;> rfl
        have hno : s.noHolder = false := by
          cases hb : s.noHolder
          · rfl
          · have := (noHolder_iff s).mp hb 0 t ht; rw [hw] at this; simp at this
        have other : ∀ (k : Nat) (u' : Th), k ≠ 0 → s1.ths = s.ths.set k u' →
            s1.ths[0]?.map (·.stack) = some [.dWait del 0, .wrCb false] := by
          intro k u' hk he
          rw [he, List.getElem?_set_ne hk]; exact h
        cases a with
        | call k c =>
          simp only [St.step] at h1
          split at h1
          · cases h1
          · rename_i u hk
            simp only [St.call] at h1
            split at h1
            · rename_i hcan
              have hk0 : k ≠ 0 := by
                rintro rfl; rw [ht] at hk; cases hk
                simp [Th.canCall, hst] at hcan
              split at h1
              · split at h1
                · cases h1
                · cases h1; exact other k _ hk0 rfl
              · cases h1; exact h
            · cases h1
        | go k =>
          simp only [St.step] at h1
          split at h1
          · cases h1
          · rename_i u hk
            split at h1
            · cases h1
            · rename_i f fs hst2
              split at h1
              · cases h1
              · have hk0 : k ≠ 0 := by
                  rintro rfl; rw [ht] at hk; cases hk
                  rw [hst] at hst2; cases hst2
                  simp [St.frame, hno] at h1
                cases f with
                | dAfter del own err =>
                  simp only [St.frame] at h1
                  split at h1
                  · exact other k _ hk0 (kput _ _ _ h1)
                  · cases h1; exact other k _ hk0 rfl
                | fin c r => exact other k _ hk0 (kput _ _ _ h1)
                | rdCb b => cases b <;> simp only [St.frame] at h1 <;> cases h1 <;> exact other k _ hk0 rfl
                | wrWait b =>
                  cases b <;> simp only [St.frame] at h1 <;> split at h1 <;> cases h1 <;> exact other k _ hk0 rfl
                | _ =>
                  simp only [St.frame] at h1
                  repeat' split at h1
                  all_goals first
                    | (cases h1; done)
                    | (cases h1; exact other k _ hk0 rfl)
      | no => rw [h1] at hr; cases hr
      | abort => rw [h1] at hr; cases hr
      | ub => rw [h1] at hr; cases hr
  intro l s' hr
  refine key l (deadSt del) s' (run_inv (cfg := ⟨false, false, false⟩) (l := deadRun del) (inv_init _ 2) ?_) ?_ hr
  · cases del <;> rfl
  · rfl

/-! ### Concrete runs -/

/-- Thread 1 is in a read callback and thread 2 runs a queue function while thread 0 asks for deletion; thread 0 gets
    through when both are done, and the destructor runs when the last call ends. -/
example : ∃ s, (St.init 3).run ⟨false, true, true⟩
    [.call 1 .read, .go 1, .go 1, .go 1, .call 2 .qfunc, .go 2, .go 2, .call 0 (.destroy true), .go 0, .go 0] = .ok s ∧
    (s.step ⟨false, true, true⟩ (.go 0) = .no) ∧
    ∃ s', s.run ⟨false, true, true⟩ [.go 1, .go 2, .go 0, .go 0, .go 0, .go 1, .go 2, .go 0, .go 0] = .ok s' ∧
      Deleted s' ∧ Idle s' ∧ s'.dtor = 1 ∧ s'.dtorBy = some 0 := by
  refine ⟨_, rfl, rfl, _, rfl, ⟨0, by decide⟩, by unfold Idle; decide, rfl, rfl⟩

/-- A writer inside its callback; an upgrade inside a queue function; a read that comes after a mark. -/
example : ∃ s, (St.init 2).run ⟨false, false, false⟩ [.call 0 .write, .go 0, .go 0, .go 0] = .ok s ∧
    Fr.wrCb false ∈ (s.ths[0]?.getD Th.init).stack := ⟨_, rfl, by decide⟩
example : ∃ s, (St.init 2).run ⟨false, false, false⟩
    [.call 0 .qfunc, .go 0, .go 0, .call 0 .write, .go 0, .go 0] = .ok s ∧
    (s.ths[0]?.getD Th.init).stack = [.wrChk true, .qCb] := ⟨_, rfl, rfl⟩
example : ∃ s, (St.init 2).run ⟨false, false, false⟩
    [.call 1 .read, .call 1 .hold] = .no ∧ (St.init 2).run ⟨false, false, false⟩
    [.call 1 .read, .call 0 (.destroy false), .go 0, .go 0, .go 0, .go 0, .go 0, .go 0, .go 1, .go 1, .go 1, .go 1] = .ok s ∧
    Destroyed s ∧ (1, Call.read, Ret.eperm) ∈ s.log := ⟨_, rfl, rfl, ⟨0, false, by decide⟩, by decide⟩
example : ∃ s, (St.init 1).run ⟨false, false, false⟩
    [.call 0 .read, .go 0, .go 0, .go 0, .call 0 (.destroy true)] = .ok s ∧
    (s.ths[0]?.getD Th.init).stack = [.dGot true, .rdCb true] ∧
    s.step ⟨false, false, false⟩ (.go 0) = .abort := ⟨_, rfl, rfl, rfl⟩

end Verif.RefObj
