import Verif.IoRead

/-! # The read loop as a sequence of elementary changes; lemmas for C52, C53, C105-C107 -/

namespace Verif.IoRead

/-- The packets delivered to the data callback, in order. -/
def delivered (f : RFd) : List (List Byte) := f.log.filterMap (fun | .data bs => some bs | _ => none)

/-- The elementary changes the read loop makes. -/
inductive Small (c : Cfg) (f : RFd) : RFd → Prop
  | chk (k : List Byte → Int) : f.isOpen = true → c.chk = some k → f.d < f.t → Small c f (call c f (.chk (window f)))
  | err (e : Int) : f.isOpen = true → Small c f (eventAndClose c f e)
  | data (n : Nat) : f.isOpen = true → n ≤ f.t - f.d → (0 < n ∨ f.ret0 = true) →
      (∀ k, c.chk = some k → f.d < f.t → k (window f) = (n : Int)) → (c.chk = none → n = f.t - f.d) →
      (call c f (.data ((window f).take n))).isOpen = true →
      Small c f (advance (call c f (.data ((window f).take n))) n)
  | dataClosed (n : Nat) : f.isOpen = true → n ≤ f.t - f.d → (0 < n ∨ f.ret0 = true) →
      (∀ k, c.chk = some k → f.d < f.t → k (window f) = (n : Int)) →
      (call c f (.data ((window f).take n))).isOpen = false → Small c f (call c f (.data ((window f).take n)))
  | clr : c.chk = none → Small c f (setRet0 f false)
  | mv : Small c f (move c f)
  | req : Small c f (request c f)
  | ret0 : Small c f (setRet0 f true)
  | store (bs : List Byte) : bs ≠ [] → bs.length ≤ c.buff - f.t → Small c f (store f bs)
  | close : Small c f { f with isOpen := false, reg := false }

inductive Star (c : Cfg) : RFd → RFd → Prop
  | refl (f) : Star c f f
  | tail (f g h) : Star c f g → Small c g h → Star c f h

theorem Star.trans {c : Cfg} {f g h : RFd} (h1 : Star c f g) (h2 : Star c g h) : Star c f h := by
  induction h2 with
  | refl => exact h1
  | tail a b _ hs ih => exact .tail _ _ _ ih hs

theorem Star.one {c : Cfg} {f g : RFd} (h : Small c f g) : Star c f g := .tail _ _ _ (.refl f) h

/-- What is preserved by every elementary change is preserved by the loop. -/
theorem Star.preserves {c : Cfg} {P : RFd → Prop} (hP : ∀ f g, P f → Small c f g → P g) {f g : RFd} (h : Star c f g) (hf : P f) : P g := by
  induction h with
  | refl => exact hf
  | tail a b _ hs ih => exact hP _ _ ih hs

theorem call_same (c : Cfg) (f : RFd) (cb : Cb) :
    (call c f cb).mem = f.mem ∧ (call c f cb).d = f.d ∧ (call c f cb).t = f.t ∧ (call c f cb).ret0 = f.ret0 ∧
      (call c f cb).log = f.log ++ [cb] ∧ (call c f cb).reqs = f.reqs ∧ (call c f cb).got = f.got ∧ (call c f cb).oob = f.oob := by
  simp only [call]; split <;> (try split) <;> simp

theorem call_window (c : Cfg) (f : RFd) (cb : Cb) : window (call c f cb) = window f := by
  simp [window, call_same]

theorem eac_same (c : Cfg) (f : RFd) (e : Int) :
    (eventAndClose c f e).mem = f.mem ∧ (eventAndClose c f e).d = f.d ∧ (eventAndClose c f e).t = f.t ∧ (eventAndClose c f e).ret0 = f.ret0 ∧
      (eventAndClose c f e).reqs = f.reqs ∧ (eventAndClose c f e).got = f.got ∧ (eventAndClose c f e).oob = f.oob := by
  simp only [eventAndClose]; split <;> (try split) <;> simp [call_same]

theorem eac_log (c : Cfg) (f : RFd) (e : Int) (h : f.isOpen = true) : (eventAndClose c f e).log = f.log ++ [.error e] := by
  simp only [eventAndClose, if_pos h]; split <;> simp [call_same]

theorem checkPkt_star (c : Cfg) (f : RFd) (h : f.isOpen = true) : Star c f (checkPkt c f).1 := by
  simp only [checkPkt]
  cases hk : c.chk with
  | none => exact .refl f
  | some k =>
    simp only
    split
    · exact .one (.chk k h hk (by omega))
    · exact .refl f

theorem checkPkt_same (c : Cfg) (f : RFd) : (checkPkt c f).1.d = f.d ∧ (checkPkt c f).1.t = f.t ∧ (checkPkt c f).1.ret0 = f.ret0 ∧
    window (checkPkt c f).1 = window f ∧ (checkPkt c f).1.mem = f.mem := by
  simp only [checkPkt]
  cases c.chk with
  | none => simp
  | some k => simp only; split <;> simp [call_same, call_window]

theorem checkPkt_some (c : Cfg) (f : RFd) (k : List Byte → Int) (h : c.chk = some k) (hlt : f.d < f.t) : (checkPkt c f).2 = k (window f) := by
  simp only [checkPkt, h]; rw [if_pos (by omega)]

theorem checkPkt_none (c : Cfg) (f : RFd) (h : c.chk = none) : checkPkt c f = (f, ((f.t - f.d : Nat) : Int)) := by
  simp only [checkPkt, h]

theorem checkPkt_empty (c : Cfg) (f : RFd) (hge : ¬ f.d < f.t) : checkPkt c f = (f, ((f.t - f.d : Nat) : Int)) := by
  simp only [checkPkt]
  cases c.chk with
  | none => rfl
  | some k => simp only; rw [if_neg (by omega)]

/-- The inner loop is a sequence of elementary changes, ends with the fd open when it ends by `break`, and then the rest
of the window is undecided. -/
theorem inner_spec (c : Cfg) (fuel : Nat) (f : RFd) (h : f.isOpen = true) (hfuel : f.t - f.d < fuel) :
    Star c f (inner c fuel f).1 ∧ ((inner c fuel f).2 = .brk → (inner c fuel f).1.isOpen = true ∧
      ((inner c fuel f).1.ret0 = false) ∧
      (∀ k, c.chk = some k → (inner c fuel f).1.d < (inner c fuel f).1.t → k (window (inner c fuel f).1) = 0) ∧
      (c.chk = none → f.d ≤ f.t → (inner c fuel f).1.d = (inner c fuel f).1.t)) := by
  induction fuel generalizing f with
  | zero => omega
  | succ fuel ih =>
    simp only [inner]
    have hs := checkPkt_star c f h
    obtain ⟨hd, ht, hr0, hwin, -⟩ := checkPkt_same c f
    have hsome := fun k hk hlt => checkPkt_some c f k hk hlt
    have hnone := checkPkt_none c f
    have hemp := checkPkt_empty c f
    generalize checkPkt c f = r at *
    by_cases ho : r.1.isOpen = true
    · rw [if_neg (by simp [ho])]
      split
      · refine ⟨hs.trans (.one (.err _ ho)), by simp⟩
      rename_i herr
      have hn : (r.2.toNat : Int) = r.2 := by omega
      have hnle : r.2.toNat ≤ r.1.t - r.1.d := by omega
      have hkk : ∀ k, c.chk = some k → r.1.d < r.1.t → k (window r.1) = (r.2.toNat : Int) := by
        intro k hk hlt
        rw [hn, hwin, hsome k hk (by omega)]
      have hnn : c.chk = none → r.2.toNat = r.1.t - r.1.d := by
        intro hk
        have := hnone hk
        have h2 : r.2 = ((f.t - f.d : Nat) : Int) := by rw [this]
        omega
      generalize r.2.toNat = n at *
      by_cases hcond : 0 < n ∨ r.1.ret0 = true
      · simp only [if_pos hcond]
        by_cases ho2 : (call c r.1 (.data ((window r.1).take n))).isOpen = true
        · rw [if_neg (by simp [ho2])]
          have hsm := Small.data n ho hnle hcond hkk hnn ho2
          have hd2 : (call c r.1 (.data ((window r.1).take n))).d = r.1.d := (call_same c r.1 _).2.1
          have ht2 : (call c r.1 (.data ((window r.1).take n))).t = r.1.t := (call_same c r.1 _).2.2.1
          have hr2 : (call c r.1 (.data ((window r.1).take n))).ret0 = r.1.ret0 := (call_same c r.1 _).2.2.2.1
          have hst := hs.trans (.one hsm)
          generalize hg : advance (call c r.1 (.data ((window r.1).take n))) n = g at *
          have hgd : g.d = r.1.d + n := by rw [← hg, ← hd2]; rfl
          have hgt : g.t = r.1.t := by rw [← hg]; exact ht2
          have hgr : g.ret0 = r.1.ret0 := by rw [← hg]; exact hr2
          have hgo : g.isOpen = true := by rw [← hg]; exact ho2
          by_cases hr : g.ret0 = true
          · rw [if_pos hr]
            by_cases hck : c.chk.isSome = true
            · rw [if_pos hck]; exact ⟨hst, by simp⟩
            · rw [if_neg hck]
              have hcn : c.chk = none := by
                cases hx : c.chk with
                | none => rfl
                | some k => simp [hx] at hck
              refine ⟨hst.trans (.one (.clr hcn)), fun _ => ⟨hgo, rfl, fun k hk => by simp [hcn] at hk, fun _ hle => ?_⟩⟩
              have := hnn hcn
              show g.d = g.t
              omega
          · rw [if_neg hr]
            by_cases hz : n = 0
            · rw [if_pos hz]
              exfalso
              rcases hcond with h | h
              · omega
              · exact hr (by rw [hgr]; exact h)
            · rw [if_neg hz]
              obtain ⟨i1, i2⟩ := ih g hgo (by omega)
              refine ⟨hst.trans i1, fun hb => ?_⟩
              obtain ⟨j1, j2, j3, j4⟩ := i2 hb
              exact ⟨j1, j2, j3, fun hcn hle => j4 hcn (by omega)⟩
        · rw [if_pos ⟨hcond, ho2⟩]
          exact ⟨hs.trans (.one (.dataClosed n ho hnle hcond hkk (by simpa using ho2))), by simp⟩
      · simp only [if_neg hcond]
        rw [if_neg (by simp [ho])]
        have hn0 : n = 0 := by omega
        have hr0 : r.1.ret0 = false := by
          cases hx : r.1.ret0 with
          | false => rfl
          | true => exact absurd (Or.inr hx) hcond
        subst hn0
        have hz : advance r.1 0 = r.1 := rfl
        rw [hz, if_neg (by simp [hr0])]
        rw [if_pos rfl]
        refine ⟨hs, fun _ => ⟨ho, hr0, fun k hk hlt => ?_, fun hcn hle => ?_⟩⟩
        · have := hkk k hk hlt
          exact this
        · have := hnn hcn
          show r.1.d = r.1.t
          omega
    · have hsh : shown c f = true := by
        cases hx : c.chk with
        | none => rw [hnone hx] at ho; exact absurd h ho
        | some k =>
          by_cases hlt : f.d < f.t
          · simp [shown, hx]; omega
          · rw [hemp hlt] at ho; exact absurd h ho
      rw [if_pos ⟨hsh, ho⟩]
      exact ⟨hs, by simp⟩

theorem lowRead_len (r : RRes) (len : Nat) (bs : List Byte) (h : lowRead r len = .bytes bs) : bs.length ≤ len := by
  cases r with
  | stream b k =>
    simp only [lowRead] at h
    split at h
    · cases h; simp
    split at h
    · simp at h
    · cases h; simp only [List.length_take]; omega
  | dgram b => simp only [lowRead] at h; cases h; simp only [List.length_take]; omega
  | eof => simp only [lowRead] at h; cases h; simp
  | again => simp [lowRead] at h
  | fail e => simp [lowRead] at h

theorem store_open (f : RFd) (bs : List Byte) : (store f bs).isOpen = f.isOpen ∧ (store f bs).reg = f.reg ∧ (store f bs).log = f.log ∧ (store f bs).ret0 = f.ret0 := by
  simp only [store]; split <;> simp

theorem move_open (c : Cfg) (f : RFd) : (move c f).isOpen = f.isOpen ∧ (move c f).reg = f.reg ∧ (move c f).log = f.log ∧ (move c f).ret0 = f.ret0 ∧
    (move c f).got = f.got ∧ (move c f).oob = f.oob ∧ (move c f).reqs = f.reqs := by
  simp only [move]; split <;> simp

/-- A whole event is a sequence of elementary changes. -/
theorem readData_star (c : Cfg) (rs : List RRes) (f : RFd) (h : f.isOpen = true) : Star c f (readData c f rs).1 := by
  induction rs generalizing f with
  | nil =>
    unfold readData
    obtain ⟨h1, h2⟩ := inner_spec c (f.t - f.d + 1) f h (by omega)
    generalize inner c (f.t - f.d + 1) f = r at *
    simp only
    cases hx : r.2 with
    | ret e => exact h1
    | brk => exact (h1.trans (.one .mv)).trans (.one .req)
  | cons x xs ih =>
    unfold readData
    obtain ⟨h1, h2⟩ := inner_spec c (f.t - f.d + 1) f h (by omega)
    generalize inner c (f.t - f.d + 1) f = r at *
    simp only
    cases hx : r.2 with
    | ret e => exact h1
    | brk =>
      have h3 := (h1.trans (.one .mv)).trans (.one .req)
      have ho : (move c r.1).isOpen = true := by rw [(move_open c r.1).1]; exact (h2 hx).1
      simp only
      generalize hg : request c (move c r.1) = g at *
      have hgo : g.isOpen = true := by rw [← hg]; exact ho
      cases hl : lowRead x (c.buff - g.t) with
      | again => exact h3
      | fail e => exact h3.trans (.one (.err _ hgo))
      | bytes bs =>
        simp only
        split
        · exact (h3.trans (.one .ret0)).trans (ih _ hgo)
        · rename_i hne
          exact (h3.trans (.one (.store bs hne (lowRead_len _ _ _ hl)))).trans (ih _ (by rw [(store_open g bs).1]; exact hgo))

/-- The fd object is valid while it is in the table. -/
theorem small_reg (c : Cfg) (f g : RFd) (hf : f.reg = true → f.isOpen = true) (h : Small c f g) : g.reg = true → g.isOpen = true := by
  have hcall : ∀ cb, (call c f cb).reg = true → (call c f cb).isOpen = true := by
    intro cb
    simp only [call]
    split
    · simp
    split
    · simp
    · simpa using hf
  cases h with
  | chk k h1 h2 h3 => exact hcall _
  | err e h1 =>
    simp only [eventAndClose, if_pos h1]
    split
    · simp
    · exact hcall _
  | data n h1 h2 h3 h4 h5 h6 => exact fun _ => h6
  | dataClosed n h1 h2 h4 h5 h3 => exact hcall _
  | clr _ => exact hf
  | mv => rw [(move_open c f).1, (move_open c f).2.1]; exact hf
  | req => exact hf
  | ret0 => exact hf
  | store bs _ _ => rw [(store_open f bs).1, (store_open f bs).2.1]; exact hf
  | close => simp

/-- Every history is a sequence of elementary changes. -/
theorem step_star (c : Cfg) (f : RFd) (op : Op) (hf : f.reg = true → f.isOpen = true) : Star c f (step c f op) := by
  cases op with
  | readable rs =>
    simp only [step]
    split
    · rename_i h; exact readData_star c rs f (hf h)
    · exact .refl f
  | close =>
    simp only [step]
    split
    · exact .one (.close)
    · exact .refl f

theorem run_star (c : Cfg) (ops : List Op) (f : RFd) (hf : f.reg = true → f.isOpen = true) : Star c f (run c f ops) := by
  induction ops generalizing f with
  | nil => exact .refl f
  | cons op ops ih =>
    have h1 := step_star c f op hf
    exact h1.trans (ih _ (Star.preserves (P := fun f => f.reg = true → f.isOpen = true) (small_reg c) h1 hf))

/-! ## Buffer invariant -/

structure WF (c : Cfg) (f : RFd) : Prop where
  len : f.mem.length = c.buff
  le : f.d ≤ f.t
  tail : f.t ≤ c.buff
  oob : f.oob = false
  reqs : ∀ r ∈ f.reqs, r.1 + r.2 = c.buff

theorem wf_init (c : Cfg) (mem : List Byte) (h : mem.length = c.buff) : WF c (init mem) :=
  ⟨h, by simp [init], by simp [init], rfl, by simp [init]⟩

theorem window_length (c : Cfg) (f : RFd) (hf : WF c f) : (window f).length = f.t - f.d := by
  simp only [window, List.length_take, List.length_drop]
  have := hf.len; have := hf.le; have := hf.tail
  omega

theorem wf_congr (c : Cfg) (f g : RFd) (hf : WF c f) (h : g.mem = f.mem ∧ g.d = f.d ∧ g.t = f.t ∧ g.reqs = f.reqs ∧ g.oob = f.oob) : WF c g := by
  obtain ⟨h1, h2, h3, h4, h5⟩ := h
  exact ⟨by rw [h1]; exact hf.len, by rw [h2, h3]; exact hf.le, by rw [h3]; exact hf.tail, by rw [h5]; exact hf.oob, by rw [h4]; exact hf.reqs⟩

theorem move_window (c : Cfg) (f : RFd) (hf : WF c f) : window (move c f) = window f := by
  have hl := window_length c f hf
  simp only [move]
  split
  · have : window { f with mem := window f ++ f.mem.drop (window f).length, d := 0, t := f.t - f.d } =
        ((window f ++ f.mem.drop (window f).length).drop 0).take (f.t - f.d - 0) := rfl
    rw [this, List.drop_zero, Nat.sub_zero, ← hl, List.take_left]
  · rfl

theorem store_window (c : Cfg) (f : RFd) (bs : List Byte) (hf : WF c f) (h : bs.length ≤ c.buff - f.t) :
    window (store f bs) = window f ++ bs := by
  have h1 := hf.len; have h2 := hf.le; have h3 := hf.tail
  simp only [store]
  rw [if_pos (by omega)]
  have : window { f with mem := f.mem.take f.t ++ bs ++ f.mem.drop (f.t + bs.length), t := f.t + bs.length, got := f.got ++ bs } =
      ((f.mem.take f.t ++ bs ++ f.mem.drop (f.t + bs.length)).drop f.d).take (f.t + bs.length - f.d) := rfl
  rw [this]
  have ht : (f.mem.take f.t).length = f.t := by rw [List.length_take]; omega
  rw [List.append_assoc, List.drop_append_of_le_length (by omega)]
  have hw : (f.mem.take f.t).drop f.d = window f := by
    simp only [window]
    rw [List.drop_take]
  rw [hw, ← List.append_assoc]
  have hl := window_length c f hf
  apply List.take_left'
  simp only [List.length_append]
  omega

theorem small_wf (c : Cfg) (f g : RFd) (hf : WF c f) (h : Small c f g) : WF c g := by
  cases h with
  | chk k h1 h2 h3 => exact wf_congr c f _ hf (by simp [call_same])
  | err e h1 => exact wf_congr c f _ hf (by simp [eac_same])
  | data n h1 h2 h3 h4 h5 h6 =>
    have hle := hf.le
    have hw := wf_congr c f (call c f (.data ((window f).take n))) hf (by simp [call_same])
    refine ⟨hw.len, ?_, hw.tail, hw.oob, hw.reqs⟩
    show (call c f _).d + n ≤ (call c f _).t
    rw [(call_same c f _).2.2.1, (call_same c f _).2.1]; omega
  | dataClosed n h1 h2 h4 h5 h3 => exact wf_congr c f _ hf (by simp [call_same])
  | clr _ => exact wf_congr c f _ hf ⟨rfl, rfl, rfl, rfl, rfl⟩
  | mv =>
    have hl := window_length c f hf
    have h1 := hf.len; have h2 := hf.le; have h3 := hf.tail
    simp only [move]
    split
    · refine ⟨?_, Nat.zero_le _, ?_, hf.oob, hf.reqs⟩
      · simp only [List.length_append, List.length_drop]; omega
      · simp only; omega
    · exact hf
  | req =>
    refine ⟨hf.len, hf.le, hf.tail, hf.oob, fun r hr => ?_⟩
    rcases List.mem_append.1 hr with h | h
    · exact hf.reqs r h
    · simp at h; subst h; have := hf.tail; simp only; omega
  | ret0 => exact wf_congr c f _ hf ⟨rfl, rfl, rfl, rfl, rfl⟩
  | store bs hne h =>
    have h1 := hf.len; have h2 := hf.le; have h3 := hf.tail
    simp only [store]
    rw [if_pos (by omega)]
    refine ⟨?_, ?_, ?_, hf.oob, hf.reqs⟩
    · simp only [List.length_append, List.length_take, List.length_drop]; omega
    · simp only; omega
    · simp only; omega
  | close => exact wf_congr c f _ hf (by simp)

theorem run_wf (c : Cfg) (mem : List Byte) (hm : mem.length = c.buff) (ops : List Op) : WF c (run c (init mem) ops) :=
  Star.preserves (small_wf c) (run_star c ops (init mem) (fun _ => rfl)) (wf_init c mem hm)

/-! ## No byte lost or delivered twice -/

theorem delivered_call (c : Cfg) (f : RFd) (bs : List Byte) : delivered (call c f (.data bs)) = delivered f ++ [bs] := by
  simp [delivered, call_same, List.filterMap_append]

theorem delivered_chk (c : Cfg) (f : RFd) (bs : List Byte) : delivered (call c f (.chk bs)) = delivered f := by
  simp [delivered, call_same, List.filterMap_append]

theorem delivered_eac (c : Cfg) (f : RFd) (e : Int) (h : f.isOpen = true) : delivered (eventAndClose c f e) = delivered f := by
  simp [delivered, eac_log c f e h, List.filterMap_append]

theorem window_advance (f g : RFd) (n : Nat) (hm : g.mem = f.mem) (hd : g.d = f.d + n) (ht : g.t = f.t) :
    window g = (window f).drop n := by
  simp only [window, hm, hd, ht]
  rw [List.drop_take, List.drop_drop]
  congr 1
  omega

/-- The invariant: what was delivered, then what is in the buffer, is what was read. -/
def Loss (f : RFd) : Prop := f.isOpen = true → (delivered f).flatten ++ window f = f.got

theorem eac_open (c : Cfg) (f : RFd) (e : Int) (h : (eventAndClose c f e).isOpen = true) : f.isOpen = true := by
  simp only [eventAndClose] at h
  split at h
  · assumption
  · assumption

theorem small_loss (c : Cfg) (f g : RFd) (hf : WF c f ∧ Loss f) (h : Small c f g) : WF c g ∧ Loss g := by
  refine ⟨small_wf c f g hf.1 h, ?_⟩
  obtain ⟨hw, hl⟩ := hf
  intro hopen
  cases h with
  | chk k h1 h2 h3 =>
    rw [delivered_chk, call_window, (call_same c f _).2.2.2.2.2.2.1]; exact hl h1
  | err e h1 =>
    have : window (eventAndClose c f e) = window f := by simp [window, eac_same]
    rw [delivered_eac c f e h1, this, (eac_same c f e).2.2.2.2.2.1]; exact hl h1
  | data n h1 h2 h3 h4 h5 h6 =>
    have hadv := window_advance f (advance (call c f (.data ((window f).take n))) n) n (call_same c f _).1 (by show (call c f _).d + n = _; rw [(call_same c f _).2.1]) (call_same c f _).2.2.1
    rw [hadv]
    have hd : delivered (advance (call c f (.data ((window f).take n))) n) = delivered f ++ [(window f).take n] := by
      rw [← delivered_call c f]; rfl
    rw [hd]
    simp only [List.flatten_append, List.flatten_cons, List.flatten_nil, List.append_nil, List.append_assoc, List.take_append_drop]
    show _ = (call c f _).got
    rw [(call_same c f _).2.2.2.2.2.2.1]
    exact hl h1
  | dataClosed n h1 h2 h4 h5 h3 => rw [h3] at hopen; simp at hopen
  | clr _ => exact hl hopen
  | mv =>
    have hm := move_open c f
    rw [hm.1] at hopen
    have : delivered (move c f) = delivered f := by simp [delivered, hm]
    rw [this, move_window c f hw, hm.2.2.2.2.1]
    exact hl hopen
  | req => exact hl hopen
  | ret0 => exact hl hopen
  | store bs hne h =>
    have hm := store_open f bs
    rw [hm.1] at hopen
    have : delivered (store f bs) = delivered f := by simp [delivered, hm]
    rw [this, store_window c f bs hw h, ← List.append_assoc, hl hopen]
    have h1 := hw.len; have h3 := hw.tail
    simp only [store]
    rw [if_pos (by omega)]
  | close => simp at hopen

/-! ## An fd that is not registered stays so -/

theorem call_unreg (c : Cfg) (f : RFd) (cb : Cb) (h : f.reg = false) : (call c f cb).reg = false := by
  unfold call; simp only; split
  · rfl
  · split
    · rfl
    · exact h

theorem eac_stays_unreg (c : Cfg) (f : RFd) (e : Int) (h : f.reg = false) : (eventAndClose c f e).reg = false := by
  unfold eventAndClose; split
  · simp only; split
    · rfl
    · exact call_unreg c f _ h
  · exact h

theorem inner_unreg_aux (c : Cfg) (fuel : Nat) (ih : ∀ f : RFd, f.reg = false → (inner c fuel f).1.reg = false) (f : RFd) (h1 : (checkPkt c f).1.reg = false) :
    (inner c (fuel + 1) f).1.reg = false := by
  have h2 : (if 0 < (checkPkt c f).2.toNat ∨ (checkPkt c f).1.ret0 = true then
      call c (checkPkt c f).1 (.data ((window (checkPkt c f).1).take (checkPkt c f).2.toNat)) else (checkPkt c f).1).reg = false := by
    split
    · exact call_unreg c _ _ h1
    · exact h1
  rw [inner]
  simp only
  generalize (if 0 < (checkPkt c f).2.toNat ∨ (checkPkt c f).1.ret0 = true then
      call c (checkPkt c f).1 (.data ((window (checkPkt c f).1).take (checkPkt c f).2.toNat)) else (checkPkt c f).1) = f2 at h2 ⊢
  split
  · exact h1
  · split
    · exact eac_stays_unreg c _ _ h1
    · split
      · exact h2
      · split
        · split <;> exact h2
        · split
          · exact h2
          · exact ih (advance f2 _) h2

theorem inner_unreg (c : Cfg) : ∀ (fuel : Nat) (f : RFd), f.reg = false → (inner c fuel f).1.reg = false := by
  intro fuel
  induction fuel with
  | zero => intro f h; exact h
  | succ fuel ih =>
    intro f h
    refine inner_unreg_aux c fuel ih f ?_
    unfold checkPkt; split
    · split
      · exact call_unreg c f _ h
      · exact h
    · exact h

end Verif.IoRead
