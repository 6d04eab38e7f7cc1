import Verif.IoReadLemmas

/-! # Reading from a registered fd (C52, C53, C105, C106, C107) -/

namespace Verif.IoRead

/-! ## Specification of packet reassembly -/

/-- The packets `ps` are taken one after the other from the front of `s`, each as long as the check function says on all that is
left, and `rest` remains. -/
inductive Split (k : List Byte → Int) : List Byte → List (List Byte) → List Byte → Prop
  | nil (s) : Split k s [] s
  | cons (s ps rest) (n : Nat) : k s = n → 0 < n → n ≤ s.length → Split k (s.drop n) ps rest → Split k s (s.take n :: ps) rest

/-- The packets of a byte stream: nothing more can be taken. -/
def Packets (k : List Byte → Int) (s : List Byte) (ps : List (List Byte)) (rest : List Byte) : Prop :=
  Split k s ps rest ∧ (rest = [] ∨ k rest = 0)

/-- A check function for a protocol with packets of at most `max` bytes: once it recognises a packet in front, more bytes
behind it do not change its answer; and `max` bytes are enough to recognise one (or to find an error). -/
structure Good (k : List Byte → Int) (max : Nat) : Prop where
  stable : ∀ w x, 0 < k w → k w ≤ w.length → k (w ++ x) = k w
  decides : ∀ w, max ≤ w.length → k w ≠ 0

/-- The low-level reads of a history: any splitting of a stream, blocking and failures, but no end of file. -/
def StreamOnly (ops : List Op) : Prop :=
  ∀ op ∈ ops, ∀ rs, op = .readable rs → ∀ r ∈ rs, (∃ bs n, r = .stream bs n) ∨ r = .again ∨ ∃ e, r = .fail e

/-! ## Facts about the specification -/

theorem Split.flatten {k : List Byte → Int} {s : List Byte} {ps : List (List Byte)} {rest : List Byte} (h : Split k s ps rest) :
    ps.flatten ++ rest = s := by
  induction h with
  | nil s => simp
  | cons s ps rest n h1 h2 h3 h4 ih => simp [List.append_assoc, ih]

theorem Split.nonempty {k : List Byte → Int} {s : List Byte} {ps : List (List Byte)} {rest : List Byte} (h : Split k s ps rest) :
    ∀ p ∈ ps, p ≠ [] := by
  induction h with
  | nil s => simp
  | cons s ps rest n h1 h2 h3 h4 ih =>
    intro p hp
    rcases List.mem_cons.1 hp with h | h
    · intro he
      rw [he] at h
      have := congrArg List.length h
      simp only [List.length_nil, List.length_take] at this
      omega
    · exact ih p h

theorem Split.snoc {k : List Byte → Int} {s : List Byte} {ps : List (List Byte)} {w : List Byte} (h : Split k s ps w) (n : Nat)
    (h1 : k w = n) (h2 : 0 < n) (h3 : n ≤ w.length) : Split k s (ps ++ [w.take n]) (w.drop n) := by
  induction h with
  | nil s => exact .cons _ _ _ n h1 h2 h3 (.nil _)
  | cons s ps rest m hm1 hm2 hm3 hm4 ih => exact .cons _ _ _ m hm1 hm2 hm3 (ih h1 h3)

/-- What was taken greedily is a prefix of the packets of the stream. -/
theorem Split.prefix {k : List Byte → Int} {s : List Byte} {ps : List (List Byte)} {w : List Byte} (h : Split k s ps w)
    {qs : List (List Byte)} {rest : List Byte} (hq : Packets k s qs rest) : ps <+: qs ∧ Packets k w (qs.drop ps.length) rest := by
  induction h generalizing qs with
  | nil s => exact ⟨List.nil_prefix, by simpa using hq⟩
  | cons s ps w n h1 h2 h3 h4 ih =>
    obtain ⟨hs, hu⟩ := hq
    cases hs with
    | nil =>
      exfalso
      rcases hu with h | h
      · subst h; simp at h3; omega
      · omega
    | cons _ qs' _ m m1 m2 m3 m4 =>
      have hmn : m = n := by omega
      subst hmn
      obtain ⟨i1, i2⟩ := ih ⟨m4, hu⟩
      refine ⟨?_, by simpa using i2⟩
      obtain ⟨t, ht⟩ := i1
      exact ⟨t, by simp [ht]⟩

/-- A stream has only one sequence of packets. -/
theorem packets_unique (k : List Byte → Int) (s : List Byte) (ps qs : List (List Byte)) (r1 r2 : List Byte)
    (h1 : Packets k s ps r1) (h2 : Packets k s qs r2) : ps = qs ∧ r1 = r2 := by
  obtain ⟨p1, -⟩ := h1.1.prefix h2
  obtain ⟨p2, -⟩ := h2.1.prefix h1
  have he : ps = qs := p1.eq_of_length (Nat.le_antisymm p1.length_le p2.length_le)
  refine ⟨he, ?_⟩
  have f1 := h1.1.flatten
  have f2 := h2.1.flatten
  rw [he] at f1
  exact List.append_cancel_left (f1.trans f2.symm)

/-! ## `IOFD_READ_RETURN_0` -/

theorem inner_ret0 (c : Cfg) (fuel : Nat) (f : RFd) (hk : c.chk.isSome = true) : (inner c fuel f).1.ret0 = f.ret0 := by
  induction fuel generalizing f with
  | zero => rfl
  | succ fuel ih =>
    simp only [inner]
    obtain ⟨-, -, hr, -⟩ := checkPkt_same c f
    generalize checkPkt c f = r at *
    split
    · exact hr
    split
    · rw [← hr]; exact (eac_same c _ _).2.2.2.1
    have hg : (if 0 < r.2.toNat ∨ r.1.ret0 = true then call c r.1 (.data ((window r.1).take r.2.toNat)) else r.1).ret0 = f.ret0 := by
      split
      · rw [(call_same c r.1 _).2.2.2.1]; exact hr
      · exact hr
    generalize (if 0 < r.2.toNat ∨ r.1.ret0 = true then call c r.1 (.data ((window r.1).take r.2.toNat)) else r.1) = g at *
    split
    · exact hg
    split
    · exact hg
    split
    · exact hg
    · rw [ih]; exact hg

theorem inner_same (c : Cfg) (fuel : Nat) (f : RFd) : (inner c fuel f).1.got = f.got ∧ (inner c fuel f).1.reqs = f.reqs ∧
    (inner c fuel f).1.mem = f.mem ∧ (inner c fuel f).1.t = f.t := by
  induction fuel generalizing f with
  | zero => exact ⟨rfl, rfl, rfl, rfl⟩
  | succ fuel ih =>
    simp only [inner]
    have hr : (checkPkt c f).1.got = f.got ∧ (checkPkt c f).1.reqs = f.reqs ∧ (checkPkt c f).1.mem = f.mem ∧ (checkPkt c f).1.t = f.t := by
      simp only [checkPkt]
      cases c.chk with
      | none => simp
      | some k => simp only; split <;> simp [call_same]
    generalize checkPkt c f = r at *
    split
    · exact hr
    split
    · rw [← hr.1, ← hr.2.1, ← hr.2.2.1, ← hr.2.2.2]; simp [eac_same]
    have hg : (if 0 < r.2.toNat ∨ r.1.ret0 = true then call c r.1 (.data ((window r.1).take r.2.toNat)) else r.1).got = f.got ∧
        (if 0 < r.2.toNat ∨ r.1.ret0 = true then call c r.1 (.data ((window r.1).take r.2.toNat)) else r.1).reqs = f.reqs ∧
        (if 0 < r.2.toNat ∨ r.1.ret0 = true then call c r.1 (.data ((window r.1).take r.2.toNat)) else r.1).mem = f.mem ∧
        (if 0 < r.2.toNat ∨ r.1.ret0 = true then call c r.1 (.data ((window r.1).take r.2.toNat)) else r.1).t = f.t := by
      split
      · simp only [call_same]; exact hr
      · exact hr
    generalize (if 0 < r.2.toNat ∨ r.1.ret0 = true then call c r.1 (.data ((window r.1).take r.2.toNat)) else r.1) = g at *
    split
    · exact hg
    split
    · split
      · exact hg
      · exact hg
    split
    · exact hg
    · obtain ⟨i1, i2, i3, i4⟩ := ih (advance g r.2.toNat)
      exact ⟨i1.trans hg.1, i2.trans hg.2.1, i3.trans hg.2.2.1, i4.trans hg.2.2.2⟩

theorem maxPkt_ge (c : Cfg) : c.size ≤ c.maxPkt := by simp only [Cfg.maxPkt]; omega

/-- After the inner loop has ended by `break`, there is room in the buffer. -/
theorem room (c : Cfg) (k : List Byte → Int) (hk : c.chk = some k) (hv : c.valid = true) (hg : Good k c.size) (f : RFd) (hw : WF c f)
    (hu : f.d < f.t → k (window f) = 0) : 0 < c.buff - (move c f).t := by
  have hsz : 1024 ≤ c.size := by
    simp only [Cfg.valid, hk, Option.isSome_some, Bool.true_and, Bool.not_or, Bool.and_eq_true, Bool.not_eq_true', decide_eq_false_iff_not] at hv
    omega
  have hm := maxPkt_ge c
  have hb : c.buff = c.maxPkt * 2 := by simp [Cfg.buff, hk]
  have hlen := window_length c f hw
  have hlt : f.t - f.d < c.size := by
    rcases Nat.lt_or_ge (f.t - f.d) c.size with h | h
    · exact h
    · exact absurd (hu (by omega)) (hg.decides _ (by omega))
  have hbet : better c f = false → 1024 ≤ c.maxPkt * 2 - f.t := by
    intro hx
    simp only [better, hk, Bool.or_eq_false_iff, decide_eq_false_iff_not] at hx
    omega
  simp only [move]
  split
  · simp only; omega
  · rename_i hx
    have := hbet (by simpa using hx)
    omega

theorem lowRead_stream (r : RRes) (len : Nat) (hlen : 0 < len) (hr : (∃ bs n, r = .stream bs n) ∨ r = .again ∨ ∃ e, r = .fail e) :
    lowRead r len ≠ .bytes [] := by
  rcases hr with ⟨bs, n, h⟩ | h | ⟨e, h⟩
  · subst h
    simp only [lowRead]
    rw [if_neg (by omega)]
    split
    · simp
    · rename_i hne
      intro h
      injection h with h
      have := congrArg List.length h
      have hb : bs.length ≠ 0 := fun h => hne (List.eq_nil_of_length_eq_zero h)
      simp only [List.length_take, List.length_nil] at this
      omega
  · subst h; simp [lowRead]
  · subst h; simp [lowRead]

/-- Without an end of file, the flag is not set. -/
theorem readData_ret0 (c : Cfg) (k : List Byte → Int) (hk : c.chk = some k) (hv : c.valid = true) (hg : Good k c.size) (rs : List RRes)
    (hrs : ∀ r ∈ rs, (∃ bs n, r = .stream bs n) ∨ r = .again ∨ ∃ e, r = .fail e) (f : RFd) (hw : WF c f) (ho : f.isOpen = true)
    (hr : f.ret0 = false) : (readData c f rs).1.ret0 = false := by
  induction rs generalizing f with
  | nil =>
    unfold readData
    have h0 := inner_ret0 c (f.t - f.d + 1) f (by simp [hk])
    generalize inner c (f.t - f.d + 1) f = r at *
    simp only
    cases hx : r.2 with
    | ret e => simp only; rw [h0, hr]
    | brk => simp only [request]; rw [(move_open c r.1).2.2.2.1, h0, hr]
  | cons x xs ih =>
    unfold readData
    have h0 := inner_ret0 c (f.t - f.d + 1) f (by simp [hk])
    obtain ⟨h1, h2⟩ := inner_spec c (f.t - f.d + 1) f ho (by omega)
    generalize inner c (f.t - f.d + 1) f = r at *
    simp only
    cases hx : r.2 with
    | ret e => simp only; rw [h0, hr]
    | brk =>
      obtain ⟨j1, j2, j3, -⟩ := h2 hx
      have hwr : WF c r.1 := Star.preserves (small_wf c) h1 hw
      have hwg : WF c (request c (move c r.1)) := Star.preserves (small_wf c) ((h1.trans (.one .mv)).trans (.one .req)) hw
      have hroom := room c k hk hv hg r.1 hwr (j3 k hk)
      have hgo : (request c (move c r.1)).isOpen = true := by simp only [request]; rw [(move_open c r.1).1]; exact j1
      have hgr : (request c (move c r.1)).ret0 = false := by simp only [request]; rw [(move_open c r.1).2.2.2.1]; exact j2
      have hgt : (request c (move c r.1)).t = (move c r.1).t := rfl
      have hnb := lowRead_stream x (c.buff - (move c r.1).t) hroom (hrs x (by simp))
      simp only [hgt]
      generalize request c (move c r.1) = g at *
      cases hl : lowRead x (c.buff - (move c r.1).t) with
      | again => exact hgr
      | fail e => simp only; rw [(eac_same c g _).2.2.2.1]; exact hgr
      | bytes bs =>
        rw [hl] at hnb
        have hne : bs ≠ [] := fun h => hnb (by rw [h])
        simp only [if_neg hne]
        have hll := lowRead_len _ _ _ hl
        rw [← hgt] at hll
        exact ih (fun r hr => hrs r (by simp [hr])) _ (small_wf c g _ hwg (.store bs hne hll)) (by rw [(store_open g bs).1]; exact hgo)
          (by rw [(store_open g bs).2.2.2]; exact hgr)

theorem run_ret0 (c : Cfg) (k : List Byte → Int) (hk : c.chk = some k) (hv : c.valid = true) (hg : Good k c.size) (ops : List Op)
    (hs : StreamOnly ops) (f : RFd) (hw : WF c f) (hro : f.reg = true → f.isOpen = true) (hr : f.ret0 = false) :
    (run c f ops).ret0 = false := by
  induction ops generalizing f with
  | nil => exact hr
  | cons op ops ih =>
    have hst := step_star c f op hro
    refine ih (fun o ho => hs o (by simp [ho])) _ (Star.preserves (small_wf c) hst hw)
      (Star.preserves (P := fun f => f.reg = true → f.isOpen = true) (small_reg c) hst hro) ?_
    cases op with
    | readable rs =>
      simp only [step]
      split
      · rename_i h
        exact readData_ret0 c k hk hv hg rs (hs _ (by simp) rs rfl) f hw (hro h) hr
      · exact hr
    | close => simp only [step]; split <;> exact hr

/-! ## The packets delivered -/

/-- The invariant for C52: what was delivered is what the greedy reading of any continuation of the stream takes first. -/
def Ext (k : List Byte → Int) (f : RFd) : Prop :=
  f.ret0 = false → ∃ w, (f.isOpen = true → w = window f) ∧ ∀ x, Split k (f.got ++ x) (delivered f) (w ++ x)

theorem ext_deliver (k : List Byte → Int) (max : Nat) (hg : Good k max) (s : List Byte) (ps : List (List Byte)) (w : List Byte) (n : Nat)
    (hn : 0 < n) (hnl : n ≤ w.length) (hkw : k w = n) (h : ∀ x, Split k (s ++ x) ps (w ++ x)) :
    ∀ x, Split k (s ++ x) (ps ++ [w.take n]) (w.drop n ++ x) := by
  intro x
  have h1 := (h x).snoc n (by rw [hg.stable w x (by omega) (by omega), hkw]) hn (by simp; omega)
  rwa [List.take_append_of_le_length hnl, List.drop_append_of_le_length hnl] at h1

theorem small_ext (c : Cfg) (k : List Byte → Int) (hk : c.chk = some k) (hg : Good k c.size) (f g : RFd) (hf : WF c f ∧ Ext k f)
    (h : Small c f g) : WF c g ∧ Ext k g := by
  refine ⟨small_wf c f g hf.1 h, ?_⟩
  obtain ⟨hw, he⟩ := hf
  intro hr
  cases h with
  | chk k' h1 h2 h3 =>
    rw [(call_same c f _).2.2.2.1] at hr
    obtain ⟨w, hw1, hw2⟩ := he hr
    refine ⟨w, fun _ => by rw [call_window]; exact hw1 h1, ?_⟩
    rw [delivered_chk, (call_same c f _).2.2.2.2.2.2.1]; exact hw2
  | err e h1 =>
    rw [(eac_same c f e).2.2.2.1] at hr
    obtain ⟨w, hw1, hw2⟩ := he hr
    have hwin : window (eventAndClose c f e) = window f := by simp [window, eac_same]
    refine ⟨w, fun _ => by rw [hwin]; exact hw1 h1, ?_⟩
    rw [delivered_eac c f e h1, (eac_same c f e).2.2.2.2.2.1]; exact hw2
  | data n h1 h2 h3 h4 h5 h6 =>
    have hr' : f.ret0 = false := by rw [← hr]; exact (call_same c f _).2.2.2.1.symm
    have hn : 0 < n := by
      rcases h3 with h | h
      · exact h
      · rw [hr'] at h; simp at h
    obtain ⟨w, hw1, hw2⟩ := he hr'
    have hwin := hw1 h1
    subst hwin
    have hl := window_length c f hw
    have hadv := window_advance f (advance (call c f (.data ((window f).take n))) n) n (call_same c f _).1
      (by show (call c f _).d + n = _; rw [(call_same c f _).2.1]) (call_same c f _).2.2.1
    have hd : delivered (advance (call c f (.data ((window f).take n))) n) = delivered f ++ [(window f).take n] := by
      rw [← delivered_call c f]; rfl
    have hgt : (advance (call c f (.data ((window f).take n))) n).got = f.got := (call_same c f _).2.2.2.2.2.2.1
    refine ⟨(window f).drop n, fun _ => hadv.symm, ?_⟩
    rw [hd, hgt]
    exact ext_deliver k _ hg _ _ _ n hn (by omega) (h4 k hk (by omega)) hw2
  | dataClosed n h1 h2 h3 h4 h5 =>
    have hr' : f.ret0 = false := by rw [← hr]; exact (call_same c f _).2.2.2.1.symm
    have hn : 0 < n := by
      rcases h3 with h | h
      · exact h
      · rw [hr'] at h; simp at h
    obtain ⟨w, hw1, hw2⟩ := he hr'
    have hwin := hw1 h1
    subst hwin
    have hl := window_length c f hw
    refine ⟨(window f).drop n, fun ho => by rw [h5] at ho; simp at ho, ?_⟩
    rw [delivered_call, (call_same c f _).2.2.2.2.2.2.1]
    exact ext_deliver k _ hg _ _ _ n hn (by omega) (h4 k hk (by omega)) hw2
  | clr h1 => rw [hk] at h1; simp at h1
  | mv =>
    have hm := move_open c f
    rw [hm.2.2.2.1] at hr
    obtain ⟨w, hw1, hw2⟩ := he hr
    have : delivered (move c f) = delivered f := by simp [delivered, hm]
    refine ⟨w, fun ho => by rw [move_window c f hw]; rw [hm.1] at ho; exact hw1 ho, ?_⟩
    rw [this, hm.2.2.2.2.1]; exact hw2
  | req => exact he hr
  | ret0 => simp [setRet0] at hr
  | store bs hne h =>
    have hm := store_open f bs
    rw [hm.2.2.2] at hr
    obtain ⟨w, hw1, hw2⟩ := he hr
    have : delivered (store f bs) = delivered f := by simp [delivered, hm]
    have hgt : (store f bs).got = f.got ++ bs := by
      have h1 := hw.len; have h3 := hw.tail
      simp only [store]
      rw [if_pos (by omega)]
    refine ⟨w ++ bs, fun ho => by rw [store_window c f bs hw h]; rw [hm.1] at ho; rw [hw1 ho], ?_⟩
    rw [this, hgt]
    intro x
    have := hw2 (bs ++ x)
    simpa [List.append_assoc] using this
  | close =>
    obtain ⟨w, hw1, hw2⟩ := he hr
    exact ⟨w, by simp, hw2⟩

/-- After every event, a registered fd has an undecided rest in its buffer. -/
theorem eac_unreg (c : Cfg) (f : RFd) (e : Int) (ho : f.isOpen = true) (hro : f.reg = true → f.isOpen = true) : (eventAndClose c f e).reg = false := by
  simp only [eventAndClose, if_pos ho]
  have h2 : (call c f (.error e)).reg = true → (call c f (.error e)).isOpen = true := by
    simp only [call]
    split
    · simp
    split
    · simp
    · simpa using hro
  split
  · rfl
  · rename_i h
    cases hx : (call c f (.error e)).reg with
    | false => rfl
    | true => exact absurd ⟨h2 hx, hx⟩ h

theorem inner_ret_reg (c : Cfg) (fuel : Nat) (f : RFd) (hr : f.ret0 = false) (hro : f.reg = true → f.isOpen = true) (e : Int)
    (h : (inner c fuel f).2 = .ret e) : (inner c fuel f).1.reg = false := by
  have hcall : ∀ f : RFd, (f.reg = true → f.isOpen = true) → ∀ cb, (call c f cb).reg = true → (call c f cb).isOpen = true := by
    intro f hro cb
    simp only [call]
    split
    · simp
    split
    · simp
    · simpa using hro
  have hfalse : ∀ f : RFd, (f.reg = true → f.isOpen = true) → ¬ f.isOpen = true → f.reg = false := by
    intro f h1 h2
    cases hx : f.reg with
    | false => rfl
    | true => exact absurd (h1 hx) h2
  induction fuel generalizing f with
  | zero => simp [inner] at h
  | succ fuel ih =>
    by_cases hu : (checkPkt c f).1.reg = false
    · exact inner_unreg_aux c fuel (inner_unreg c fuel) f hu
    simp only [inner] at h ⊢
    obtain ⟨-, -, hr1, -⟩ := checkPkt_same c f
    have hro1 : (checkPkt c f).1.reg = true → (checkPkt c f).1.isOpen = true := by
      simp only [checkPkt]
      cases c.chk with
      | none => exact hro
      | some k =>
        simp only
        split
        · exact hcall f hro _
        · exact hro
    generalize checkPkt c f = r at *
    by_cases ho : r.1.isOpen = true
    · rw [if_neg (by simp [ho])] at h ⊢
      by_cases herr : r.2 < 0 ∨ r.2 > ((r.1.t - r.1.d : Nat) : Int)
      · rw [if_pos herr] at h ⊢
        exact eac_unreg c r.1 _ ho hro1
      · rw [if_neg herr] at h ⊢
        have hg : ∀ (P : Prop) [Decidable P], ((if P then call c r.1 (.data ((window r.1).take r.2.toNat)) else r.1).reg = true →
            (if P then call c r.1 (.data ((window r.1).take r.2.toNat)) else r.1).isOpen = true) ∧
            (if P then call c r.1 (.data ((window r.1).take r.2.toNat)) else r.1).ret0 = false := by
          intro P _
          split
          · exact ⟨hcall r.1 hro1 _, by rw [(call_same c r.1 _).2.2.2.1, hr1, hr]⟩
          · exact ⟨hro1, by rw [hr1, hr]⟩
        obtain ⟨hg1, hg2⟩ := hg (0 < r.2.toNat ∨ r.1.ret0 = true)
        generalize (if 0 < r.2.toNat ∨ r.1.ret0 = true then call c r.1 (.data ((window r.1).take r.2.toNat)) else r.1) = g at *
        by_cases ho2 : g.isOpen = true
        · rw [if_neg (by simp [ho2])] at h ⊢
          rw [if_neg (by simp [advance, hg2])] at h ⊢
          by_cases hz : r.2.toNat = 0
          · rw [if_pos hz] at h; simp at h
          · rw [if_neg hz] at h ⊢
            exact ih (advance g r.2.toNat) hg2 hg1 h
        · have hg3 := hfalse g hg1 ho2
          split
          · exact hg3
          · split
            · split <;> exact hg3
            · split
              · exact hg3
              · exact inner_unreg c fuel (advance g _) hg3
    · exact absurd (hfalse r.1 hro1 ho) hu

theorem readData_undecided (c : Cfg) (k : List Byte → Int) (hk : c.chk = some k) (rs : List RRes) (f : RFd) (hw : WF c f)
    (ho : f.isOpen = true) (hro : f.reg = true → f.isOpen = true) :
    (readData c f rs).1.reg = true → (readData c f rs).1.ret0 = false → (readData c f rs).1.d < (readData c f rs).1.t →
      k (window (readData c f rs).1) = 0 := by
  have hkey : ∀ r : RFd × IExit, Star c f r.1 → r.2 = .brk → (∀ k, c.chk = some k → r.1.d < r.1.t → k (window r.1) = 0) →
      (request c (move c r.1)).d < (request c (move c r.1)).t → k (window (request c (move c r.1))) = 0 := by
    intro r hst _ hu hlt
    have hwr : WF c r.1 := Star.preserves (small_wf c) hst hw
    have hwm : WF c (move c r.1) := small_wf c _ _ hwr .mv
    have h1 : window (request c (move c r.1)) = window (move c r.1) := rfl
    rw [h1, move_window c r.1 hwr]
    apply hu k hk
    have l1 := window_length c r.1 hwr
    have l2 := window_length c _ hwm
    rw [move_window c r.1 hwr] at l2
    have : (move c r.1).d < (move c r.1).t := hlt
    omega
  induction rs generalizing f with
  | nil =>
    unfold readData
    obtain ⟨h1, h2⟩ := inner_spec c (f.t - f.d + 1) f ho (by omega)
    have h3 := fun e => inner_ret_reg c (f.t - f.d + 1) f (hro := hro) (e := e)
    have h4 := inner_ret0 c (f.t - f.d + 1) f (by simp [hk])
    generalize inner c (f.t - f.d + 1) f = r at *
    simp only
    cases hx : r.2 with
    | ret e =>
      intro hr h0
      have := h3 e (by rw [← h4]; exact h0) hx
      simp only at hr
      rw [this] at hr; simp at hr
    | brk => intro _ _; exact hkey r h1 hx (h2 hx).2.2.1
  | cons x xs ih =>
    unfold readData
    obtain ⟨h1, h2⟩ := inner_spec c (f.t - f.d + 1) f ho (by omega)
    have h3 := fun e => inner_ret_reg c (f.t - f.d + 1) f (hro := hro) (e := e)
    have h4 := inner_ret0 c (f.t - f.d + 1) f (by simp [hk])
    generalize inner c (f.t - f.d + 1) f = r at *
    simp only
    cases hx : r.2 with
    | ret e =>
      intro hr h0
      have := h3 e (by rw [← h4]; exact h0) hx
      simp only at hr
      rw [this] at hr; simp at hr
    | brk =>
      have hst := (h1.trans (.one .mv)).trans (.one .req)
      have hwg : WF c (request c (move c r.1)) := Star.preserves (small_wf c) hst hw
      have hgo : (request c (move c r.1)).isOpen = true := by simp only [request]; rw [(move_open c r.1).1]; exact (h2 hx).1
      have hgr : (request c (move c r.1)).reg = true → (request c (move c r.1)).isOpen = true := fun _ => hgo
      have hk1 := hkey r h1 hx (h2 hx).2.2.1
      simp only
      generalize request c (move c r.1) = g at *
      cases hl : lowRead x (c.buff - g.t) with
      | again => intro _ _; exact hk1
      | fail e =>
        intro hr
        simp only at hr
        rw [eac_unreg c g _ hgo hgr] at hr; simp at hr
      | bytes bs =>
        simp only
        have hll := lowRead_len _ _ _ hl
        by_cases hne : bs = []
        · rw [if_pos hne]
          refine ih (setRet0 g true) (small_wf c g _ hwg .ret0) hgo hgr ?_
          intro r' hst' hb hu hlt
          have hwr : WF c r'.1 := Star.preserves (small_wf c) hst' (small_wf c g _ hwg .ret0)
          have h1' : window (request c (move c r'.1)) = window (move c r'.1) := rfl
          rw [h1', move_window c r'.1 hwr]
          apply hu k hk
          have l1 := window_length c r'.1 hwr
          have l2 := window_length c _ (small_wf c _ _ hwr .mv)
          rw [move_window c r'.1 hwr] at l2
          have : (move c r'.1).d < (move c r'.1).t := hlt
          omega
        · rw [if_neg hne]
          refine ih (store g bs) (small_wf c g _ hwg (.store bs hne hll)) (by rw [(store_open g bs).1]; exact hgo)
            (fun _ => by rw [(store_open g bs).1]; exact hgo) ?_
          intro r' hst' hb hu hlt
          have hwr : WF c r'.1 := Star.preserves (small_wf c) hst' (small_wf c g _ hwg (.store bs hne hll))
          have h1' : window (request c (move c r'.1)) = window (move c r'.1) := rfl
          rw [h1', move_window c r'.1 hwr]
          apply hu k hk
          have l1 := window_length c r'.1 hwr
          have l2 := window_length c _ (small_wf c _ _ hwr .mv)
          rw [move_window c r'.1 hwr] at l2
          have : (move c r'.1).d < (move c r'.1).t := hlt
          omega

theorem run_undecided (c : Cfg) (k : List Byte → Int) (hk : c.chk = some k) (ops : List Op) (f : RFd) (hw : WF c f)
    (hro : f.reg = true → f.isOpen = true) (hu : f.reg = true → f.ret0 = false → f.d < f.t → k (window f) = 0) :
    (run c f ops).reg = true → (run c f ops).ret0 = false → (run c f ops).d < (run c f ops).t → k (window (run c f ops)) = 0 := by
  induction ops generalizing f with
  | nil => exact hu
  | cons op ops ih =>
    have hst := step_star c f op hro
    refine ih _ (Star.preserves (small_wf c) hst hw)
      (Star.preserves (P := fun f => f.reg = true → f.isOpen = true) (small_reg c) hst hro) ?_
    cases op with
    | readable rs =>
      simp only [step]
      split
      · rename_i h
        exact readData_undecided c k hk rs f hw (hro h) hro
      · exact hu
    | close =>
      simp only [step]
      split
      · simp
      · exact hu

/-! ## C52 -/

/-- **C52**, no byte is lost or delivered twice, whatever the check function does: while the fd is open, the delivered packets, one after the
other, followed by what is in the buffer, are exactly the bytes that were read. -/
theorem C52_lossless (c : Cfg) (mem : List Byte) (hm : mem.length = c.buff) (ops : List Op) (ho : (run c (init mem) ops).isOpen = true) :
    (delivered (run c (init mem) ops)).flatten ++ window (run c (init mem) ops) = (run c (init mem) ops).got :=
  (Star.preserves (P := fun f => WF c f ∧ Loss f) (small_loss c) (run_star c ops (init mem) (fun _ => rfl))
    ⟨wf_init c mem hm, fun _ => by simp [delivered, init, window]⟩).2 ho

/-- **C52.**  For every check function of a protocol with packets up to the registered size, every splitting of the stream into reads and events, every
placement of "would block": as long as the fd is registered, the packets delivered are exactly the packets of
the bytes read, and the rest of them is kept. -/
theorem C52_packets (c : Cfg) (k : List Byte → Int) (hk : c.chk = some k) (hv : c.valid = true) (hg : Good k c.size) (mem : List Byte)
    (hm : mem.length = c.buff) (ops : List Op) (hs : StreamOnly ops) (hreg : (run c (init mem) ops).reg = true) :
    Packets k (run c (init mem) ops).got (delivered (run c (init mem) ops)) (window (run c (init mem) ops)) := by
  have hw0 := wf_init c mem hm
  have hst := run_star c ops (init mem) (fun _ => rfl)
  have hr0 := run_ret0 c k hk hv hg ops hs (init mem) hw0 (fun _ => rfl) rfl
  have hopen := Star.preserves (P := fun f => f.reg = true → f.isOpen = true) (small_reg c) hst (fun _ => rfl) hreg
  have hu := run_undecided c k hk ops (init mem) hw0 (fun _ => rfl) (fun _ _ h => by simp [init] at h) hreg hr0
  obtain ⟨hw, he⟩ := Star.preserves (P := fun f => WF c f ∧ Ext k f) (small_ext c k hk hg) hst
    ⟨hw0, fun _ => ⟨[], fun _ => by simp [window, init], fun x => by simpa [delivered, init] using Split.nil x⟩⟩
  obtain ⟨w, hw1, hw2⟩ := he hr0
  have := hw1 hopen
  subst this
  have h0 := hw2 []
  simp only [List.append_nil] at h0
  refine ⟨h0, ?_⟩
  by_cases hlt : (run c (init mem) ops).d < (run c (init mem) ops).t
  · exact Or.inr (hu hlt)
  · left
    have := window_length c _ hw
    exact List.eq_nil_of_length_eq_zero (by omega)

/-- **C52**, independence of the read boundaries: two histories on fds with the same check function that have read the same bytes have
delivered the same packets, even if the callbacks act differently otherwise. -/
theorem C52_split_independent (c1 c2 : Cfg) (k : List Byte → Int) (hk1 : c1.chk = some k) (hk2 : c2.chk = some k) (hv1 : c1.valid = true)
    (hv2 : c2.valid = true) (hg1 : Good k c1.size) (hg2 : Good k c2.size) (m1 m2 : List Byte) (hm1 : m1.length = c1.buff)
    (hm2 : m2.length = c2.buff) (ops1 ops2 : List Op) (hs1 : StreamOnly ops1) (hs2 : StreamOnly ops2)
    (hr1 : (run c1 (init m1) ops1).reg = true) (hr2 : (run c2 (init m2) ops2).reg = true)
    (hgot : (run c1 (init m1) ops1).got = (run c2 (init m2) ops2).got) :
    delivered (run c1 (init m1) ops1) = delivered (run c2 (init m2) ops2) ∧
      window (run c1 (init m1) ops1) = window (run c2 (init m2) ops2) := by
  have h1 := C52_packets c1 k hk1 hv1 hg1 m1 hm1 ops1 hs1 hr1
  have h2 := C52_packets c2 k hk2 hv2 hg2 m2 hm2 ops2 hs2 hr2
  rw [hgot] at h1
  exact packets_unique k _ _ _ _ _ h1 h2

/-- **C52**, also for an fd that was closed, by a callback, by an error, or from outside: what it delivered is a prefix of the packets of
every stream that begins with the bytes read. -/
theorem C52_prefix (c : Cfg) (k : List Byte → Int) (hk : c.chk = some k) (hv : c.valid = true) (hg : Good k c.size) (mem : List Byte)
    (hm : mem.length = c.buff) (ops : List Op) (hs : StreamOnly ops) (x : List Byte) (ps : List (List Byte)) (rest : List Byte)
    (hp : Packets k ((run c (init mem) ops).got ++ x) ps rest) : delivered (run c (init mem) ops) <+: ps := by
  have hw0 := wf_init c mem hm
  have hst := run_star c ops (init mem) (fun _ => rfl)
  have hr0 := run_ret0 c k hk hv hg ops hs (init mem) hw0 (fun _ => rfl) rfl
  obtain ⟨-, he⟩ := Star.preserves (P := fun f => WF c f ∧ Ext k f) (small_ext c k hk hg) hst
    ⟨hw0, fun _ => ⟨[], fun _ => by simp [window, init], fun x => by simpa [delivered, init] using Split.nil x⟩⟩
  obtain ⟨w, -, hw2⟩ := he hr0
  exact ((hw2 x).prefix hp).1

/-! ## C53 -/

/-- **C53.**  Every request made to the low-level read lies inside the receive buffer, and no byte is ever stored outside it: for all sizes, all check
functions (also wrong ones), all callbacks, all read results. -/
theorem C53_no_overflow (c : Cfg) (mem : List Byte) (hm : mem.length = c.buff) (ops : List Op) :
    (∀ r ∈ (run c (init mem) ops).reqs, r.1 + r.2 ≤ mem.length) ∧ (run c (init mem) ops).oob = false ∧
      (run c (init mem) ops).d ≤ (run c (init mem) ops).t ∧ (run c (init mem) ops).t ≤ mem.length := by
  have h := run_wf c mem hm ops
  refine ⟨fun r hr => ?_, h.oob, h.le, by rw [hm]; exact h.tail⟩
  have := h.reqs r hr
  omega

end Verif.IoRead
