import Verif.IoReadProps

/-!
# The end of a registered fd as its callbacks see it

Errors, closing and unregistering on the read side; the model is that of `Verif.IoRead` (kernel/iofd.c:73-198, 498-596).
-/

namespace Verif.IoRead

/-! ## Specification -/

/-- No error has been announced. -/
def NoErr (l : List Cb) : Prop := ∀ e, Cb.error e ∉ l

/-- The error `e` is the one and only error announced, and nothing came after it. -/
def LastErr (l : List Cb) (e : Int) : Prop := ∃ l', l = l' ++ [.error e] ∧ NoErr l'

/-! ## Helpers -/

theorem noErr_snoc {l : List Cb} {cb : Cb} (h : NoErr l) (hc : ∀ e, cb ≠ .error e) : NoErr (l ++ [cb]) := by
  intro e he
  rcases List.mem_append.1 he with h1 | h1
  · exact h e h1
  · exact hc e (List.mem_singleton.1 h1).symm

theorem call_log (c : Cfg) (f : RFd) (cb : Cb) : (call c f cb).log = f.log ++ [cb] := by
  unfold call; simp only; split
  · rfl
  · split <;> rfl

theorem call_closed (c : Cfg) (f : RFd) (cb : Cb) (ho : f.isOpen = true) (h : (call c f cb).isOpen = false) : (call c f cb).reg = false := by
  unfold call at h ⊢; simp only at h ⊢
  split at h
  · rename_i hc; rw [if_pos hc]
  · split at h <;> simp [ho] at h

/-- How `f_event_and_close` leaves an open fd. -/
theorem eventAndClose_spec (c : Cfg) (f : RFd) (e : Int) (ho : f.isOpen = true) (hn : NoErr f.log) :
    LastErr (eventAndClose c f e).log e ∧ (eventAndClose c f e).reg = false := by
  unfold eventAndClose
  rw [if_pos ho]
  simp only
  split
  · exact ⟨⟨f.log, by simp [call_log], hn⟩, rfl⟩
  · rename_i hc
    refine ⟨⟨f.log, call_log .., hn⟩, ?_⟩
    cases hr : (call c f (.error e)).reg with
    | false => rfl
    | true =>
      cases hi : (call c f (.error e)).isOpen with
      | false => rw [call_closed c f _ ho hi] at hr; exact hr.symm
      | true => exact absurd ⟨hi, hr⟩ hc

theorem checkPkt_noErr (c : Cfg) (f : RFd) (hn : NoErr f.log) : NoErr (checkPkt c f).1.log := by
  unfold checkPkt
  split
  · split
    · rw [call_log]; exact noErr_snoc hn (by simp)
    · exact hn
  · exact hn

/-- Without a call of the check function the fd stays as it is. -/
theorem checkPkt_open (c : Cfg) (f : RFd) (ho : f.isOpen = true) (h : ¬ shown c f = true) : (checkPkt c f).1.isOpen = true := by
  unfold checkPkt
  split
  · rename_i k hk
    split
    · rename_i hw; simp [shown, hk] at h; omega
    · exact ho
  · exact ho

theorem inner_err (c : Cfg) : ∀ (fuel : Nat) (f : RFd), f.isOpen = true → NoErr f.log →
    ((inner c fuel f).2 = .brk → (inner c fuel f).1.isOpen = true ∧ NoErr (inner c fuel f).1.log) ∧
    (∀ e, (inner c fuel f).2 = .ret e → e = 0 ∧ NoErr (inner c fuel f).1.log ∨ LastErr (inner c fuel f).1.log e ∧ (inner c fuel f).1.reg = false) := by
  intro fuel
  induction fuel with
  | zero => intro f ho hn; exact ⟨fun _ => ⟨ho, hn⟩, by simp [inner]⟩
  | succ fuel ih =>
    intro f ho hn
    have hn1 := checkPkt_noErr c f hn
    simp only [inner]
    split
    · exact ⟨by simp, fun e he => .inl ⟨by simpa using he.symm, hn1⟩⟩
    · rename_i ho1
      have ho1 : (checkPkt c f).1.isOpen = true := by
        cases hx : (checkPkt c f).1.isOpen with
        | true => rfl
        | false =>
          rw [checkPkt_open c f ho (fun hs => ho1 ⟨hs, by simp [hx]⟩)] at hx
          cases hx
      split
      · rename_i hbad
        refine ⟨by simp, fun e he => .inr ?_⟩
        simp only [IExit.ret.injEq] at he
        have hs := eventAndClose_spec c (checkPkt c f).1 (if (checkPkt c f).2 < 0 then (checkPkt c f).2 else -eINVAL) ho1 hn1
        have : e = if (checkPkt c f).2 < 0 then (checkPkt c f).2 else -eINVAL := by
          rw [← he]
          by_cases h1 : (checkPkt c f).2 < 0
          · rw [if_neg (by omega), if_pos h1]
          · rw [if_neg h1, if_pos (by omega)]
        rw [this]
        exact hs
      · generalize hf2 : (if 0 < (checkPkt c f).2.toNat ∨ (checkPkt c f).1.ret0 = true then
            call c (checkPkt c f).1 (.data ((window (checkPkt c f).1).take (checkPkt c f).2.toNat)) else (checkPkt c f).1) = f2
        have hn2 : NoErr f2.log := by
          rw [← hf2]; split
          · rw [call_log]; exact noErr_snoc hn1 (by simp)
          · exact hn1
        split
        · exact ⟨by simp, fun e he => .inl ⟨by simpa using he.symm, hn2⟩⟩
        · rename_i ho2
          have ho2 : f2.isOpen = true := by
            cases hx : f2.isOpen with
            | true => rfl
            | false =>
              have hc : ¬ (0 < (checkPkt c f).2.toNat ∨ (checkPkt c f).1.ret0 = true) := fun hc => ho2 ⟨hc, by simp [hx]⟩
              rw [if_neg hc] at hf2
              rw [← hf2, ho1] at hx; cases hx
          split
          · split
            · exact ⟨by simp, fun e he => .inl ⟨by simpa using he.symm, hn2⟩⟩
            · exact ⟨fun _ => ⟨ho2, hn2⟩, by simp⟩
          · split
            · exact ⟨fun _ => ⟨ho2, hn2⟩, by simp⟩
            · exact ih _ ho2 hn2

theorem move_eq (c : Cfg) (f : RFd) : (move c f).isOpen = f.isOpen ∧ (move c f).log = f.log ∧ (move c f).reg = f.reg := by
  unfold move; split <;> exact ⟨rfl, rfl, rfl⟩

theorem store_eq (f : RFd) (bs : List Byte) : (store f bs).isOpen = f.isOpen ∧ (store f bs).log = f.log := by
  unfold store; split <;> exact ⟨rfl, rfl⟩

theorem readData_spec (c : Cfg) (rs : List RRes) : ∀ f, f.isOpen = true → NoErr f.log →
    ((readData c f rs).2 = .blocked → NoErr (readData c f rs).1.log) ∧
    (∀ e, (readData c f rs).2 = .ret e → e = 0 ∧ NoErr (readData c f rs).1.log ∨ LastErr (readData c f rs).1.log e ∧ (readData c f rs).1.reg = false) := by
  induction rs with
  | nil =>
    intro f ho hn
    obtain ⟨h1, h2⟩ := inner_err c (f.t - f.d + 1) f ho hn
    rw [readData]
    cases hx : (inner c (f.t - f.d + 1) f).2 with
    | ret e => simp only [hx]; exact ⟨by simp, fun e' he => by cases he; exact h2 e hx⟩
    | brk =>
      simp only [hx, request, (move_eq c _).2.1]
      exact ⟨fun _ => (h1 hx).2, by simp⟩
  | cons r rs ih =>
    intro f ho hn
    obtain ⟨h1, h2⟩ := inner_err c (f.t - f.d + 1) f ho hn
    rw [readData]
    cases hx : (inner c (f.t - f.d + 1) f).2 with
    | ret e => simp only [hx]; exact ⟨by simp, fun e' he => by cases he; exact h2 e hx⟩
    | brk =>
      simp only [hx]
      have hgo : (request c (move c (inner c (f.t - f.d + 1) f).1)).isOpen = true := by
        simp only [request, (move_eq c _).1]; exact (h1 hx).1
      have hgn : NoErr (request c (move c (inner c (f.t - f.d + 1) f).1)).log := by
        simp only [request, (move_eq c _).2.1]; exact (h1 hx).2
      generalize request c (move c (inner c (f.t - f.d + 1) f).1) = g at hgo hgn
      split
      · exact ⟨fun _ => hgn, by simp⟩
      · rename_i e _
        refine ⟨by simp, fun e' he => .inr ?_⟩
        cases he
        exact eventAndClose_spec c g _ hgo hgn
      · split
        · exact ih (setRet0 g true) hgo hgn
        · exact ih (store g _) (by rw [(store_eq _ _).1]; exact hgo) (by rw [(store_eq _ _).2]; exact hgn)

/-- The fd is either without an error so far, or gone with one. -/
def Fine (f : RFd) : Prop := NoErr f.log ∨ f.reg = false ∧ ∃ e, LastErr f.log e

theorem step_fine (c : Cfg) (f : RFd) (op : Op) (hr : f.reg = true → f.isOpen = true) (h : Fine f) : Fine (step c f op) := by
  cases op with
  | readable rs =>
    simp only [step]
    split
    · rename_i hreg
      have hn : NoErr f.log := by
        rcases h with h | ⟨h, _⟩
        · exact h
        · rw [hreg] at h; cases h
      obtain ⟨h1, h2⟩ := readData_spec c rs f (hr hreg) hn
      cases hx : (readData c f rs).2 with
      | blocked => exact .inl (h1 hx)
      | ret e =>
        rcases h2 e hx with ⟨_, h⟩ | ⟨h, h'⟩
        · exact .inl h
        · exact .inr ⟨h', e, h⟩
    · exact h
  | close =>
    simp only [step]
    split
    · rename_i hreg
      rcases h with h | ⟨h, _⟩
      · exact .inl h
      · rw [hreg] at h; cases h
    · exact h

theorem run_reg (c : Cfg) (mem : List Byte) (ops : List Op) : (run c (init mem) ops).reg = true → (run c (init mem) ops).isOpen = true :=
  Star.preserves (P := fun f => f.reg = true → f.isOpen = true) (small_reg c) (run_star c ops (init mem) (fun _ => rfl)) (fun _ => rfl)

theorem run_append' (c : Cfg) (ops1 : List Op) : ∀ (f : RFd) (ops2 : List Op), run c f (ops1 ++ ops2) = run c (run c f ops1) ops2 := by
  induction ops1 with
  | nil => intro f ops2; rfl
  | cons op ops1 ih => intro f ops2; exact ih _ _

theorem run_fine (c : Cfg) (mem : List Byte) (ops : List Op) : Fine (run c (init mem) ops) := by
  have key : ∀ n, ∀ l, l = ops.take n → Fine (run c (init mem) l) := by
    intro n
    induction n with
    | zero => intro l hl; subst hl; exact .inl (by intro e h; simp [run, init] at h)
    | succ n ih =>
      intro l hl
      rw [List.take_succ] at hl
      subst hl
      cases hx : ops[n]? with
      | none => simpa using ih _ rfl
      | some op =>
        simp only [Option.toList_some]
        rw [run_append']
        exact step_fine c _ op (run_reg c mem _) (ih _ rfl)
  exact key ops.length ops (by simp)

theorem unreg_run (c : Cfg) (ops : List Op) : ∀ f, f.reg = false → run c f ops = f := by
  induction ops with
  | nil => intro f _; rfl
  | cons op ops ih =>
    intro f h
    simp only [run]
    have : step c f op = f := by cases op <;> simp [step, h]
    rw [this]; exact ih f h

/-! ## C122 -/

/-- **C122**: in every history an error is announced at most once, and it is the last callback ever. -/
theorem C122_error_last (c : Cfg) (mem : List Byte) (ops : List Op) (i : Nat) (e : Int) (h : (run c (init mem) ops).log[i]? = some (.error e)) :
    i + 1 = (run c (init mem) ops).log.length := by
  rcases run_fine c mem ops with hn | ⟨_, e', l', hl, hn⟩
  · exact absurd (List.mem_of_getElem? h) (hn e)
  · rw [hl] at h ⊢
    rw [List.length_append, List.length_singleton]
    rw [List.getElem?_append] at h
    split at h
    · exact absurd (List.mem_of_getElem? h) (hn e)
    · rename_i hlt
      rw [List.getElem?_singleton] at h
      split at h
      · omega
      · simp at h

/-- **C122**: whenever serving a readable fd fails — the read failed, or the check function returned an error or more than it was shown — the error is announced, and the fd
is no longer registered. -/
theorem C122_announced (c : Cfg) (mem : List Byte) (ops : List Op) (hreg : (run c (init mem) ops).reg = true) (rs : List RRes) (e : Int) (he : e ≠ 0)
    (h : (readData c (run c (init mem) ops) rs).2 = .ret e) :
    LastErr (step c (run c (init mem) ops) (.readable rs)).log e ∧ (step c (run c (init mem) ops) (.readable rs)).reg = false := by
  have hn : NoErr (run c (init mem) ops).log := by
    rcases run_fine c mem ops with h | ⟨h, _⟩
    · exact h
    · rw [hreg] at h; cases h
  simp only [step, if_pos hreg]
  rcases (readData_spec c rs _ (run_reg c mem ops hreg) hn).2 e h with ⟨h0, _⟩ | h
  · exact absurd h0 he
  · exact h

/-- **C122**: a failing read is such a failure (if the callbacks before it leave the fd open). -/
theorem C122_read_fails (c : Cfg) (f : RFd) (e : Nat) (rs : List RRes) (h : (inner c (f.t - f.d + 1) f).2 = .brk) :
    (readData c f (.fail e :: rs)).2 = .ret (-(e : Int)) := by
  rw [readData]
  simp [h, lowRead]

/-- **C122**: so is a check function's verdict that is negative or exceeds what it was shown: the announced error is its own, or EINVAL. -/
theorem C122_bad_check (c : Cfg) (k : List Byte → Int) (hk : c.chk = some k) (f : RFd) (hw : 0 < f.t - f.d) (ho : (call c f (.chk (window f))).isOpen = true)
    (hb : k (window f) < 0 ∨ k (window f) > ((f.t - f.d : Nat) : Int)) (rs : List RRes) :
    (readData c f rs).2 = .ret (if k (window f) < 0 then k (window f) else -1022) := by
  have hd : (call c f (.chk (window f))).t = f.t ∧ (call c f (.chk (window f))).d = f.d := by
    unfold call; simp only; split
    · exact ⟨rfl, rfl⟩
    · split <;> exact ⟨rfl, rfl⟩
  have hc : checkPkt c f = (call c f (.chk (window f)), k (window f)) := by simp [checkPkt, hk, hw]
  have hi : (inner c (f.t - f.d + 1) f).2 = .ret (if k (window f) < 0 then k (window f) else -1022) := by
    simp only [inner, hc, ho, not_true_eq_false, and_false, if_false, hd.1, hd.2, if_pos hb, IExit.ret.injEq]
    by_cases h1 : k (window f) < 0
    · rw [if_neg (by omega), if_pos h1]
    · rw [if_pos (by omega), if_neg h1]; rfl
  rw [readData.eq_def]
  simp only [hi]

/-- **C122**: after a close, also one from outside a callback, no callback runs. -/
theorem C122_close (c : Cfg) (f : RFd) (ops : List Op) : (run c (step c f .close) ops).log = f.log ∧ (run c (step c f .close) ops).reg = false := by
  have h : (step c f .close).reg = false ∧ (step c f .close).log = f.log := by
    simp only [step]; split
    · exact ⟨rfl, rfl⟩
    · rename_i h; exact ⟨by simpa using h, rfl⟩
  rw [unreg_run c ops _ h.1]
  exact ⟨h.2, h.1⟩

/-- Where closing callbacks can be in the log. -/
structure Clo (c : Cfg) (f : RFd) : Prop where
  reg : f.isOpen = true → f.reg = true
  last : ∀ p, p <+: f.log → p ≠ [] → c.closes p = true → p = f.log ∧ f.isOpen = false

theorem call_clo (c : Cfg) (hd : ∀ l, c.dels l = false) (f : RFd) (cb : Cb) (h : Clo c f) (ho : f.isOpen = true) : Clo c (call c f cb) := by
  have hr := h.reg ho
  refine ⟨?_, ?_⟩
  · unfold call; simp only; split
    · simp
    · simp [hd, hr]
  · intro p hp hne hc
    rw [call_log] at hp ⊢
    rcases (List.prefix_concat_iff.1 hp).symm with h1 | h1
    · have := (h.last p h1 hne hc).2
      rw [ho] at this; cases this
    · subst h1
      refine ⟨rfl, ?_⟩
      unfold call; simp [hc, hr]

theorem small_clo (c : Cfg) (hd : ∀ l, c.dels l = false) (f g : RFd) (hf : Clo c f) (h : Small c f g) : Clo c g := by
  cases h with
  | chk k h1 h2 h3 => exact call_clo c hd f _ hf h1
  | err e h1 =>
    simp only [eventAndClose, if_pos h1]
    have hc := call_clo c hd f (.error e) hf h1
    split
    · exact ⟨by simp, fun p hp hne h => ⟨(hc.last p hp hne h).1, rfl⟩⟩
    · exact hc
  | data n h1 h2 h3 h4 h5 h6 => 
    have hc := call_clo c hd f (.data ((window f).take n)) hf h1
    exact ⟨hc.reg, hc.last⟩
  | dataClosed n h1 h2 h4 h5 h3 => exact call_clo c hd f _ hf h1
  | clr _ => exact ⟨hf.reg, hf.last⟩
  | mv => exact ⟨by rw [(move_eq c f).1, (move_eq c f).2.2]; exact hf.reg, by rw [(move_eq c f).1, (move_eq c f).2.1]; exact hf.last⟩
  | req => exact ⟨hf.reg, hf.last⟩
  | ret0 => exact ⟨hf.reg, hf.last⟩
  | store bs _ _ => exact ⟨by rw [(store_open f bs).1, (store_open f bs).2.1]; exact hf.reg, by rw [(store_eq f bs).1, (store_eq f bs).2]; exact hf.last⟩
  | close => exact ⟨by simp, fun p hp hne h => ⟨(hf.last p hp hne h).1, rfl⟩⟩

/-- **C122**: a callback that closes the fd is the last one (if none unregisters it without closing it: see C123). -/
theorem C122_close_in_callback (c : Cfg) (mem : List Byte) (ops : List Op) (hd : ∀ l, c.dels l = false) (i : Nat)
    (hi : i < (run c (init mem) ops).log.length) (h : c.closes ((run c (init mem) ops).log.take (i + 1)) = true) :
    i + 1 = (run c (init mem) ops).log.length ∧ (run c (init mem) ops).isOpen = false := by
  have key : Clo c (run c (init mem) ops) := Star.preserves (small_clo c hd) (run_star c ops (init mem) (fun _ => rfl))
    ⟨fun _ => rfl, fun p hp hne => by simp only [init, List.prefix_nil] at hp; exact absurd hp hne⟩
  have h1 := key.last _ (List.take_prefix _ _) (by intro e; rw [List.take_eq_nil_iff] at e; rcases e with e | e <;> simp_all) h
  refine ⟨?_, h1.2⟩
  have := congrArg List.length h1.1
  rw [List.length_take] at this
  omega

/-! ## C123 -/

/-- A stream with one-byte packets (`chk_pkt_f` answers 1) whose first data callback unregisters the fd. -/
def unregCfg : Cfg := ⟨some (fun _ => 1), 1024, fun _ => false, fun l => l == [.chk [1, 2, 3], .data [1]]⟩

/-- **C123** fails: after a callback has unregistered the fd, the loop goes on: it shows and delivers the rest of the buffer, reads the fd again, although it may be closed and its number in use
for another connection by now, and delivers what it got. -/
theorem C123_goes_on : ∃ f, f = run unregCfg (init (List.replicate 2048 0)) [.readable [.stream [1, 2, 3] 9, .stream [9] 9]] ∧
    f.log = [.chk [1, 2, 3], .data [1], .chk [2, 3], .data [2], .chk [3], .data [3], .chk [9], .data [9]] ∧ f.reg = false ∧ f.got = [1, 2, 3, 9] :=
  ⟨_, rfl, by decide +kernel, by decide +kernel, by decide +kernel⟩

/-- **C123**, what holds: the next event is not served any more, so that at most the loop that is running continues. -/
theorem C123_next_event_partial (c : Cfg) (f : RFd) (h : f.reg = false) (ops : List Op) : run c f ops = f := unreg_run c ops f h

/-! ## Sizes accepted by the registration -/

/-- **C53**: the sizes accepted are exactly those from 1 KiB (with a check function; from 0 without) to 4 MiB, and the buffer holds at least the registered size, twice that with a check function. -/
theorem C53_sizes (c : Cfg) : (c.valid = true ↔ (c.chk.isSome = true → 1024 ≤ c.size) ∧ c.size ≤ 4 * 1024 * 1024) ∧
    c.size ≤ c.buff ∧ (c.chk.isSome = true → c.size * 2 ≤ c.buff) ∧ c.buff < c.size * 2 + 16 := by
  refine ⟨?_, ?_⟩
  · simp only [Cfg.valid, Bool.not_eq_true', Bool.or_eq_false_iff, Bool.and_eq_false_iff, decide_eq_false_iff_not]
    cases c.chk <;> simp <;> omega
  · simp only [Cfg.buff, Cfg.maxPkt]
    refine ⟨?_, fun h => ?_, ?_⟩
    · split <;> omega
    · rw [if_pos h]; omega
    · split <;> omega

/-! ## Concrete cases -/

/-- A length-prefixed stream: one byte of length. -/
def okCfg : Cfg := ⟨some (fun w => match w with | [] => 0 | n :: _ => if n.toNat + 1 ≤ w.length then n.toNat + 1 else 0), 1024, fun l => l == [.chk [0], .data [0]], fun _ => false⟩

/-- The read fails after a packet: the error is announced as the last callback, and a later event has no effect. -/
example : (run okCfg (init (List.replicate 2048 0)) [.readable [.stream [2, 7, 8, 1] 9, .fail 1104], .readable [.stream [1] 9]]).log =
    [.chk [2, 7, 8, 1], .data [2, 7, 8], .chk [1], .error (-1104)] := by decide +kernel

/-- `C122_close_in_callback`: the first data callback closes the fd. -/
example : (run okCfg (init (List.replicate 2048 0)) [.readable [.stream [0] 0, .stream [5] 0], .readable [.stream [1] 9]]).log = [.chk [0], .data [0]] ∧
    okCfg.closes [.chk [0], .data [0]] = true := by decide +kernel

/-- `C122_announced`: the hypotheses are met. -/
example : (run okCfg (init (List.replicate 2048 0)) []).reg = true ∧ (readData okCfg (run okCfg (init (List.replicate 2048 0)) []) [.fail 1104]).2 = .ret (-1104) ∧
    (inner okCfg 1 (init (List.replicate 2048 0))).2 = .brk := by decide +kernel

/-- `C122_bad_check`: a check function that always answers 2000. -/
example : (run ⟨some (fun _ => 2000), 1024, fun _ => false, fun _ => false⟩ (init (List.replicate 2048 0)) [.readable [.stream [5] 9]]).log = [.chk [5], .error (-1022)] := by decide +kernel

end Verif.IoRead
