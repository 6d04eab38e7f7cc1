import Verif.RefObjProps

/-!
# More about ref objects: aborts are never false alarms (C96), calls do not deadlock (C132)
-/
namespace Verif.RefObj

theorem countP_pos_mem {p : Fr → Bool} {l : List Fr} (h : 0 < l.countP p) : ∃ f ∈ l, p f = true :=
  List.countP_pos_iff.mp h

/-- Aborts are never false alarms.  Whenever a call ends the process, the calling thread is inside one
    of the object's own callbacks, in one of the combinations that could never finish:
    reading inside its own write callback, or (non-recursive objects) inside its own read callback;
    writing inside its own read or write callback, or inside a queue function while another thread
    is turning its queue function's lock into the write lock as well;
    destroying inside its own read callback or (synchronous objects) inside a queue function. -/
theorem C96_no_false_abort_partial (cfg : Cfg) (n : Nat) (l : List Act) (s : St) (hr : (St.init n).run cfg l = .ok s)
    (a : Act) (h : s.step cfg a = .abort) :
    ∃ i t f fs, a = .go i ∧ s.ths[i]? = some t ∧ t.stack = f :: fs ∧
      ((f = .rdGot ∧ ((∃ b, Fr.wrCb b ∈ fs) ∨ (cfg.recursive = false ∧ Fr.rdCb true ∈ fs))) ∨
       (f = .wrGot ∧ ((∃ b, Fr.wrCb b ∈ fs) ∨ Fr.rdCb true ∈ fs ∨
          (cfg.async = false ∧ Fr.qCb ∈ fs ∧ ∃ j u, j ≠ i ∧ s.ths[j]? = some u ∧ Fr.wrWait true ∈ u.stack ∧ Fr.qCb ∈ u.stack))) ∨
       (∃ d, f = .dGot d ∧ (Fr.rdCb true ∈ fs ∨ (cfg.async = false ∧ Fr.qCb ∈ fs)))) := by
  have hI := run_inv (inv_init cfg n) hr
  cases a with
  | call i c =>
    simp only [St.step] at h
    split at h
    · simp at h
    · simp only [St.call] at h
      repeat' split at h
      all_goals simp at h
  | go i =>
    simp only [St.step] at h
    split at h
    · simp at h
    rename_i t hi
    split at h
    · simp at h
    rename_i f fs hst
    have hl := live hI hi hst
    have hT := (top_iff hst).mp (hI.th i t hi)
    simp only [hl.1, Bool.false_eq_true, if_false] at h
    refine ⟨i, t, f, fs, rfl, hi, hst, ?_⟩
    have hrd : f.isRd = false → t.rd ≠ 0 → Fr.rdCb true ∈ fs := by
      intro hf h0
      have := hT.rd
      rw [hf] at this
      simp at this
      obtain ⟨g, hg, hp⟩ := countP_pos_mem (p := Fr.isRd) (l := fs) (by omega)
      have hc := hT.cb g hg
      cases g <;> simp [Fr.isRd, Fr.isCb] at hp hc
      rename_i b
      cases b
      · simp [Fr.isRd] at hp
      · exact hg
    have hwr : f.isWr = false → t.wr = true → ∃ b, Fr.wrCb b ∈ fs := by
      intro hf h0
      have := hT.wr
      rw [hf, h0] at this
      simp at this
      obtain ⟨g, hg, hp⟩ := countP_pos_mem (p := Fr.isWr) (l := fs) (by omega)
      have hc := hT.cb g hg
      cases g <;> simp [Fr.isWr, Fr.isCb] at hp hc
      exact ⟨_, hg⟩
    have hq : ({ t with stack := fs } : Th).onQ = true → Fr.qCb ∈ fs := fun hq => (onQ_iff _).mp hq
    have putNo : ∀ (s' : St), s'.put i ≠ .abort := by
      intro s'
      simp only [St.put]
      split
      · simp
      · split <;> simp
    cases f with
    | rdGot =>
      refine .inl ⟨rfl, ?_⟩
      simp only [St.frame] at h
      split at h
      · simp at h
      split at h
      · rename_i hw; exact .inl (hwr rfl hw)
      split at h
      · rename_i hw
        simp only [Bool.and_eq_true, Bool.not_eq_true', bne_iff_ne] at hw
        exact .inr ⟨hw.1, hrd rfl hw.2⟩
      split at h <;> simp at h
    | wrGot =>
      refine .inr (.inl ⟨rfl, ?_⟩)
      simp only [St.frame] at h
      split at h
      · rename_i hw
        simp only [Bool.or_eq_true, bne_iff_ne] at hw
        rcases hw with hw | hw
        · exact .inr (.inl (hrd rfl hw))
        · exact .inl (hwr rfl hw)
      rename_i hnw
      split at h
      · rename_i hqa
        simp only [Bool.and_eq_true, Bool.not_eq_true'] at hqa
        split at h
        · rename_i hup
          refine .inr (.inr ⟨hqa.2, hq hqa.1, ?_⟩)
          simp only [List.any_eq_true] at hup
          obtain ⟨u, hu, hup⟩ := hup
          obtain ⟨j, hj⟩ := List.getElem?_of_mem hu
          have hUI := hI.th j u hj
          -- the calling thread holds the lock for reading
          have hraw : t.raw ≠ 0 := by
            have h1 := hT.raw
            have h2 := qcb_count (hq hqa.1)
            have h3 : fs.countP Fr.isWr = 0 := by
              have := hT.wr
              simp only [Bool.or_eq_true, bne_iff_ne, not_or] at hnw
              have hw0 : t.wr = false := by simpa using hnw.2
              rw [hw0] at this
              simp [Fr.isWr] at this
              omega
            have h4 := (up_le fs).2
            simp [Fr.isRdWait, Fr.upAcq, Fr.isQ, hqa.2] at h1
            omega
          simp only [Th.upgrading, List.any_eq_true, Bool.or_eq_true, beq_iff_eq] at hup
          obtain ⟨g, hg, hup⟩ := hup
          have noW : u.rawW = false := by
            cases hw : u.rawW
            · rfl
            · exact absurd ((hI.exW j u hj hw i t hi).1) hraw
          have hcw : u.stack.countP Fr.isW = 0 := by
            have := hUI.rw
            rw [noW] at this
            simpa using this.symm
          have hgw : g = .wrWait true := by
            rcases hup with (hh | hh) | hh
            · exact hh
            · have := mem_countP (p := Fr.isW) hg (by rw [hh]; rfl); omega
            · have := mem_countP (p := Fr.isW) hg (by rw [hh]; rfl); omega
          subst hgw
          have hqu : Fr.qCb ∈ u.stack := by
            have hwf := hUI.wf
            clear hUI hup hj hcw noW hu
            generalize u.stack = st at *
            induction st with
            | nil => simp at hg
            | cons g st ih =>
              rcases List.mem_cons.mp hg with rfl | hm
              · exact List.mem_cons_of_mem _ (hwf.2.1.1 rfl).2
              · exact List.mem_cons_of_mem _ (ih hm hwf.2.2)
          refine ⟨j, u, ?_, hj, hg, hqu⟩
          rintro rfl
          rw [hi] at hj
          cases hj
          rw [hst] at hg
          simp only [List.mem_cons, reduceCtorEq, false_or] at hg
          have := hT.cb _ hg
          simp [Fr.isCb] at this
        · simp at h
      · simp at h
    | dGot d =>
      refine .inr (.inr ⟨d, rfl, ?_⟩)
      simp only [St.frame] at h
      split at h
      · rename_i hqa
        simp only [Bool.and_eq_true, Bool.not_eq_true'] at hqa
        exact .inr ⟨hqa.2, hq hqa.1⟩
      split at h
      · rename_i hw
        simp only [bne_iff_ne] at hw
        exact .inl (hrd rfl hw)
      repeat' split at h
      all_goals simp at h
    | wrChk up =>
      exfalso
      simp only [St.frame] at h
      split at h
      · split at h
        · rename_i hd hup
          subst hup
          have := C36_no_upgrade_abort cfg n l s hr i t fs hi hst
          rw [hd] at this; simp at this
        · simp at h
      · simp at h
    | dAfter d o e =>
      exfalso
      simp only [St.frame] at h
      split at h
      · exact putNo _ h
      · simp at h
    | fin c r => exfalso; simp only [St.frame] at h; exact putNo _ h
    | rdCb b => exfalso; cases b <;> simp [St.frame] at h
    | wrWait b => exfalso; cases b <;> simp only [St.frame] at h <;> split at h <;> simp at h
    | holdCb => simp [St.frame] at h
    | rdWait => simp only [St.frame] at h; split at h <;> simp at h
    | rdChk => simp only [St.frame] at h; split at h <;> simp at h
    | wrCb b => simp [St.frame] at h
    | qGot => simp only [St.frame] at h; repeat' split at h
              all_goals simp at h
    | qChk => simp only [St.frame] at h; split at h <;> simp at h
    | qCb => simp [St.frame] at h
    | dMark d o => simp only [St.frame] at h; split at h <;> simp at h
    | dWait d o => simp only [St.frame] at h; split at h <;> simp at h
    | dSet d o => simp [St.frame] at h
    | dSpin o => simp only [St.frame] at h; split at h <;> simp at h

/-! ## C132 -/

/-- Threads that do not use the object inside its own callbacks. Models no code of its own. -/
def NotNested (s : St) : Prop := ∀ t ∈ s.ths, t.stack.length ≤ 1

/-- No deadlock: in every reachable state in which no thread uses the object inside one of its own
    callbacks, if any call is in flight then some call can go on (a call that is in its callback goes on
    when the callback returns). -/
theorem C132_no_deadlock (cfg : Cfg) (n : Nat) (l : List Act) (s : St) (hr : (St.init n).run cfg l = .ok s)
    (hn : NotNested s) (hb : ∃ t ∈ s.ths, t.stack ≠ []) : ∃ i s', s.step cfg (.go i) = .ok s' := by
  have hI := run_inv (inv_init cfg n) hr
  -- a thread in a call has exactly one frame
  have one : ∀ (i : Nat) (t : Th), s.ths[i]? = some t → t.stack ≠ [] → ∃ f, t.stack = [f] ∧ Top cfg s.destroyed t f [] ∧
      s.step cfg (.go i) = s.frame cfg i { t with stack := [] } f := by
    intro i t hi h0
    have hlen := hn t (List.mem_of_getElem? hi)
    cases hst : t.stack with
    | nil => exact absurd hst h0
    | cons f fs =>
      have : fs = [] := by
        rw [hst] at hlen
        simp at hlen
        exact hlen
      subst this
      refine ⟨f, rfl, (top_iff hst).mp (hI.th i t hi), ?_⟩
      simp [St.step, hi, hst, (live hI hi hst).1]
  have ohq : ∀ t : Th, ({ t with stack := [] } : Th).onQ = false := by intro t; simp [Th.onQ]
  have putOk : ∀ (s' : St) (i : Nat), s'.usage ≠ 0 → ∃ s'', s'.put i = .ok s'' := by
    intro s' i h
    simp only [St.put]
    split
    · omega
    · split <;> exact ⟨_, rfl⟩
  -- a thread that has the lock can go on
  by_cases hW : ∃ (i : Nat) (t : Th), s.ths[i]? = some t ∧ (t.rawW = true ∨ t.raw ≠ 0)
  · obtain ⟨i, t, hi, hh⟩ := hW
    have h0 : t.stack ≠ [] := by
      intro he
      have h1 := hI.th i t hi
      have h2 := h1.rw; have h3 := h1.raw; have h4 := h1.rd
      rw [he] at h2 h3 h4
      simp at h2 h3 h4
      rcases hh with hh | hh
      · rw [hh] at h2; simp at h2
      · rw [h4] at h3; simp at h3; omega
    obtain ⟨f, hst, hT, hs⟩ := one i t hi h0
    refine ⟨i, ?_⟩
    rw [hs]
    have h2 := hT.rw; have h3 := hT.raw; have h4 := hT.rd
    simp only [List.countP_nil, Nat.zero_add] at h2 h3 h4
    cases f with
    | rdChk => simp only [St.frame]; split <;> exact ⟨_, rfl⟩
    | rdCb b => cases b <;> exact ⟨_, rfl⟩
    | wrChk up =>
      simp only [St.frame]
      split
      · split
        · rename_i hd hup
          subst hup
          have := C36_no_upgrade_abort cfg n l s hr i t [] hi hst
          rw [hd] at this; simp at this
        · exact ⟨_, rfl⟩
      · exact ⟨_, rfl⟩
    | wrCb up => exact ⟨_, rfl⟩
    | qChk => simp only [St.frame]; split <;> exact ⟨_, rfl⟩
    | qCb => exact ⟨_, rfl⟩
    | dSet d o => exact ⟨_, rfl⟩
    | _ =>
      exfalso
      simp [Fr.isRd, Fr.isW, Fr.upAcq, Fr.isRdWait, Fr.isQ] at h2 h3 h4
      simp [h2] at hh
      first
        | (rw [h4] at h3; simp at h3; omega)
        | (rw [h4] at h3; simp at h3; exact hh h3)
  · -- nobody has the lock: every lock can be taken
    have hfree : ∀ (i : Nat) (t : Th), s.ths[i]? = some t → t.rawW = false ∧ t.raw = 0 := by
      intro i t hi
      constructor
      · cases hw : t.rawW
        · rfl
        · exact absurd ⟨i, t, hi, .inl hw⟩ hW
      · by_cases hz : t.raw = 0
        · exact hz
        · exact absurd ⟨i, t, hi, .inr hz⟩ hW
    have hnoW : s.noW = true := by
      simp only [St.noW, List.all_eq_true]
      intro t ht
      obtain ⟨i, hi⟩ := List.getElem?_of_mem ht
      simp [(hfree i t hi).1]
    have hnoH : s.noHolder = true := by
      simp only [St.noHolder, List.all_eq_true]
      intro t ht
      obtain ⟨i, hi⟩ := List.getElem?_of_mem ht
      simp [(hfree i t hi).1, (hfree i t hi).2]
    -- every thread in a call that is not the spinning deleter can go on
    have key : ∀ (i : Nat) (t : Th) (f : Fr), s.ths[i]? = some t → t.stack = [f] → f.isSpin = false →
        ∃ s', s.step cfg (.go i) = .ok s' := by
      intro i t f hi hst hsp
      obtain ⟨f', hst', hT, hs⟩ := one i t hi (by rw [hst]; simp)
      rw [hst] at hst'
      cases hst'
      rw [hs]
      have h4 := hT.rd; have h5 := hT.wr; have h6 := hT.lc
      have hu := (live hI hi hst).2
      simp only [List.countP_nil, Nat.zero_add] at h4 h5
      cases f with
      | rdGot =>
        simp [Fr.isRd, Fr.isWr] at h4 h5
        simp only [St.frame]
        repeat' split
        all_goals first | exact ⟨_, rfl⟩ | (exfalso; simp_all [Th.onQ]; done)
      | wrGot =>
        simp [Fr.isRd, Fr.isWr] at h4 h5
        simp only [St.frame]
        repeat' split
        all_goals first | exact ⟨_, rfl⟩ | (exfalso; simp_all [Th.onQ]; done)
      | rdWait => simp [St.frame, hnoW]
      | wrWait b =>
        cases b
        · simp [St.frame, hnoH]
        · exact absurd (h6.1 rfl).2 (by simp)
      | wrChk b =>
        cases b
        · simp only [St.frame]
          split
          · simp
          · exact ⟨_, rfl⟩
        · exact absurd (h6.1 rfl).2 (by simp)
      | qGot => simp only [St.frame, hnoW]; split <;> simp
      | dWait d o => simp [St.frame, hnoH]
      | dGot d =>
        simp [Fr.isRd] at h4
        simp only [St.frame]
        repeat' split
        all_goals first | exact ⟨_, rfl⟩ | (exfalso; simp_all [Th.onQ]; done)
      | dAfter d o e =>
        simp only [St.frame]
        split
        · exact putOk _ i hu
        · exact ⟨_, rfl⟩
      | fin c r => simp only [St.frame]; exact putOk _ i hu
      | dSpin o => simp [Fr.isSpin] at hsp
      | rdCb b => cases b <;> exact ⟨_, rfl⟩
      | rdChk => simp only [St.frame]; split <;> exact ⟨_, rfl⟩
      | qChk => simp only [St.frame]; split <;> exact ⟨_, rfl⟩
      | dMark d o => simp only [St.frame]; split <;> exact ⟨_, rfl⟩
      | _ => exact ⟨_, rfl⟩
    obtain ⟨t, ht, h0⟩ := hb
    obtain ⟨i, hi⟩ := List.getElem?_of_mem ht
    obtain ⟨f, hst, hT, hs⟩ := one i t hi h0
    cases hsp : f.isSpin with
    | false => exact ⟨i, key i t f hi hst hsp⟩
    | true =>
      -- another thread in a call can go on; if there is none, the deleter's wait is over
      by_cases hoth : ∃ j u, j ≠ i ∧ s.ths[j]? = some u ∧ u.stack ≠ []
      · obtain ⟨j, u, hji, hj, hu0⟩ := hoth
        obtain ⟨g, hg, _, _⟩ := one j u hj hu0
        cases hgs : g.isSpin with
        | false => exact ⟨j, key j u g hj hg hgs⟩
        | true =>
          exfalso
          have h2 := tot_two Fr.delAct hi hj (Ne.symm hji)
          have h3 := hI.one
          have : f.delAct = true ∧ g.delAct = true := by
            constructor
            · cases f <;> simp [Fr.isSpin] at hsp; rfl
            · cases g <;> simp [Fr.isSpin] at hgs; rfl
          rw [hst, hg] at h2
          simp [this.1, this.2] at h2
          split at h3 <;> omega
      · refine ⟨i, ?_⟩
        rw [hs]
        cases f <;> simp [Fr.isSpin] at hsp
        rename_i o
        have hd : 1 ≤ tot Fr.delAct s.ths := by
          have := tot_pos Fr.delAct hi
          rw [hst] at this
          simpa [Fr.delAct] using this
        have h3 := hI.one
        have hins : s.installed = false := by
          cases hx : s.installed
          · rfl
          · rw [hx] at h3; simp at h3; omega
        have only : ∀ p : Fr → Bool, tot p s.ths = [Fr.dSpin o].countP p := by
          intro p
          have h1 := tot_set p hi Th.init
          have h2 : tot p (s.ths.set i Th.init) = 0 := by
            have hz : ∀ u ∈ s.ths.set i Th.init, u.stack = [] := by
              intro u hu
              obtain ⟨j, hj⟩ := List.getElem?_of_mem hu
              by_cases hij : i = j
              · subst hij
                rw [List.getElem?_set_self' ] at hj
                rw [hi] at hj
                simp at hj
                rw [← hj]; rfl
              · rw [List.getElem?_set_ne hij] at hj
                by_cases hz : u.stack = []
                · exact hz
                · exact absurd ⟨j, u, Ne.symm hij, hj, hz⟩ hoth
            generalize s.ths.set i Th.init = L at hz
            clear h1
            induction L with
            | nil => rfl
            | cons a L ih =>
              have ha := hz a (by simp)
              have := ih (fun u hu => hz u (by simp [hu]))
              simp only [tot, List.map_cons, List.sum_cons] at this ⊢
              rw [ha]
              simpa using this
          rw [hst, h2] at h1
          have h0 : Th.init.stack.countP p = 0 := rfl
          rw [h0] at h1
          omega
        have hpend : s.initRef = false := by
          have h5 := hI.pend
          rw [only Fr.pend] at h5
          simp [Fr.pend, hins] at h5
          exact h5
        have hus := hI.us
        rw [only anyFr, hpend] at hus
        simp [anyFr] at hus
        simp only [St.frame, hus]
        simp
        
/-- non-vacuity: three threads, one inside a write callback, the others waiting for it -/
example : ∃ s, (St.init 3).run ⟨false, false, true⟩
    [.call 0 .write, .go 0, .go 0, .go 0, .call 1 .read, .go 1, .call 2 (.destroy true), .go 2, .go 2] = .ok s ∧
    s.ths.map (·.stack) = [[.wrCb false], [.rdWait], [.dWait true 0]] := ⟨_, rfl, rfl⟩

/-- Two functions run by queues with the same (synchronous) object that both call aosl_ref_write: neither could ever get the lock, and the second one ends the process. -/
theorem C96_two_upgrades_partial (cfg : Cfg) (n : Nat) (l : List Act) (s : St) (hr : (St.init n).run cfg l = .ok s) (ha : cfg.async = false)
    (i j : Nat) (t u : Th) (fs : List Fr) (hi : s.ths[i]? = some t) (hst : t.stack = .wrGot :: fs) (hq : Fr.qCb ∈ fs)
    (hj : s.ths[j]? = some u) (hu : Fr.wrWait true ∈ u.stack) : s.step cfg (.go i) = .abort := by
  have hI := run_inv (inv_init cfg n) hr
  have hl := live hI hi hst
  have h1 : s.ths.any Th.upgrading = true := by
    rw [List.any_eq_true]
    refine ⟨u, List.mem_of_getElem? hj, ?_⟩
    simp only [Th.upgrading, List.any_eq_true]
    exact ⟨_, hu, by simp⟩
  have h2 : Th.onQ { t with stack := fs } = true := by
    simp only [Th.onQ, List.any_eq_true]
    exact ⟨_, hq, by simp⟩
  simp only [St.step, hi, hst, hl.1, Bool.false_eq_true, if_false, St.frame, h2, ha, Bool.not_false, Bool.and_self, if_true, h1]
  split <;> rfl

/-- The schedule: two queues run a function with the object, both functions call aosl_ref_write. -/
example : (St.init 2).run ⟨false, false, false⟩ [.call 0 .qfunc, .go 0, .go 0, .call 1 .qfunc, .go 1, .go 1, .call 0 .write, .go 0, .call 1 .write, .go 1] = .abort := by decide +kernel

/-- A thread that is in none of the object's callbacks, or in any one of them, may make any call: the lookup always answers at once. -/
theorem C34_callbacks_may_call (cfg : Cfg) (n : Nat) (l : List Act) (s : St) (hr : (St.init n).run cfg l = .ok s)
    (i : Nat) (t : Th) (c : Call) (hi : s.ths[i]? = some t)
    (hc : t.stack = [] ∨ ∃ fs, t.stack = .holdCb :: fs ∨ t.stack = .qCb :: fs ∨ ∃ b, t.stack = .rdCb b :: fs ∨ t.stack = .wrCb b :: fs) :
    ∃ s', s.step cfg (.call i c) = .ok s' := by
  have hcan : t.canCall = true := by
    rcases hc with h | ⟨fs, h | h | ⟨b, h | h⟩⟩ <;> simp [Th.canCall, h]
  have hub : s.step cfg (.call i c) ≠ .ub := by
    have := C34_no_use_after_free cfg n (l ++ [.call i c])
    have happ : ∀ (l : List Act) (s0 : St), s0.run cfg l = .ok s → s0.run cfg (l ++ [.call i c]) = s.run cfg [.call i c] := by
      intro l
      induction l with
      | nil => intro s0 h; simp only [St.run, Out.ok.injEq] at h; subst h; rfl
      | cons a l ih =>
        intro s0 h
        simp only [List.cons_append, St.run] at h ⊢
        split at h
        · exact ih _ h
        · rename_i hx; exact absurd h (hx s)
    rw [happ l _ hr] at this
    simp only [St.run] at this
    intro h; rw [h] at this; exact this rfl
  simp only [St.step, hi, St.call, hcan, if_true] at hub ⊢
  split
  · split
    · rename_i h1 h2; simp [h1, h2] at hub
    · exact ⟨_, rfl⟩
  · exact ⟨_, rfl⟩

end Verif.RefObj
