import Verif.IoReadProps

/-! # Datagrams, the end of a stream, callbacks after a close (C105, C106, C107); examples for C52, C53 -/

namespace Verif.IoRead

/-- The callbacks neither close nor unregister the fd. Models no code of its own. -/
structure Passive (c : Cfg) : Prop where
  closes : ∀ l, c.closes l = false
  dels : ∀ l, c.dels l = false

theorem call_passive (c : Cfg) (hp : Passive c) (f : RFd) (cb : Cb) : call c f cb = { f with log := f.log ++ [cb] } := by
  simp [call, hp.closes, hp.dels]

/-! ## C105: datagrams -/

theorem inner_rest (c : Cfg) (f : RFd) (hz : f.t - f.d = 0) (ho : f.isOpen = true) (hr : f.ret0 = false) (n : Nat) : inner c (n + 1) f = (f, .brk) := by
  have ha : advance f 0 = f := rfl
  simp only [inner, checkPkt_empty c f (by omega), hz, Int.toNat_natCast, ho, hr, ha]
  simp [ha, hr, ho]

/-- The inner loop without a check function: the whole window is delivered once, if there is one or a 0 was returned. -/
theorem inner_none (c : Cfg) (hc : c.chk = none) (hp : Passive c) (f : RFd) (hw : WF c f) (ho : f.isOpen = true) (hr : f.ret0 = true → f.d = f.t) :
    let r := inner c (f.t - f.d + 1) f
    r.2 = .brk ∧ r.1.isOpen = true ∧ r.1.reg = f.reg ∧ r.1.ret0 = false ∧ r.1.d = r.1.t ∧ WF c r.1 ∧ r.1.got = f.got ∧
      delivered r.1 = delivered f ++ (if f.d < f.t ∨ f.ret0 = true then [window f] else []) := by
  have hle := hw.le
  have hwl := window_length c f hw
  by_cases hlt : f.d < f.t
  · -- a datagram
    have hr0 : f.ret0 = false := by
      cases hx : f.ret0 with
      | false => rfl
      | true => have := hr hx; omega
    have htk : (window f).take (f.t - f.d) = window f := List.take_of_length_le (by omega)
    obtain ⟨m, hm⟩ : ∃ m, f.t - f.d = m + 1 := ⟨f.t - f.d - 1, by omega⟩
    have hin : inner c (f.t - f.d + 1) f = (advance (call c f (.data (window f))) (f.t - f.d), .brk) := by
      have e1 : inner c (f.t - f.d + 1) f = inner c (f.t - f.d) (advance (call c f (.data (window f))) (f.t - f.d)) := by
        simp only [inner, checkPkt_none c f hc, Int.toNat_natCast]
        rw [if_neg (by simp [ho]), if_neg (by omega), if_pos (Or.inl (by omega : 0 < f.t - f.d)), htk, call_passive c hp]
        rw [if_neg (by simp [ho]), if_neg (by simp [advance, hr0]), if_neg (by omega)]
      rw [e1]
      generalize hg : advance (call c f (.data (window f))) (f.t - f.d) = g
      have g1 : g.d = g.t := by rw [← hg, call_passive c hp]; simp only [advance]; omega
      have g2 : g.ret0 = false := by rw [← hg, call_passive c hp]; exact hr0
      have g3 : g.isOpen = true := by rw [← hg, call_passive c hp]; exact ho
      rw [hm]
      have hz : g.t - g.d = 0 := by omega
      exact inner_rest c g hz g3 g2 m
    have hst := (inner_spec c (f.t - f.d + 1) f ho (by omega)).1
    have hwf : WF c (inner c (f.t - f.d + 1) f).1 := Star.preserves (small_wf c) hst hw
    simp only [hin] at hwf ⊢
    rw [call_passive c hp] at hwf ⊢
    refine ⟨trivial, ho, rfl, hr0, ?_, hwf, rfl, ?_⟩
    · simp only [advance]; omega
    · rw [if_pos (Or.inl hlt)]
      simp [delivered, advance, List.filterMap_append]
  · have hz : f.t - f.d = 0 := by omega
    have hwin : window f = [] := List.eq_nil_of_length_eq_zero (by omega)
    cases hx : f.ret0 with
    | true =>
      have hin : inner c (f.t - f.d + 1) f = (setRet0 (call c f (.data (window f))) false, .brk) := by
        simp only [inner, checkPkt_none c f hc, hz, call_passive c hp]
        simp [advance, hx, hc, hwin, ho]
      have hst := (inner_spec c (f.t - f.d + 1) f ho (by omega)).1
      have hwf : WF c (inner c (f.t - f.d + 1) f).1 := Star.preserves (small_wf c) hst hw
      simp only [hin] at hwf ⊢
      rw [call_passive c hp] at hwf ⊢
      refine ⟨trivial, ho, rfl, rfl, ?_, hwf, rfl, ?_⟩
      · simp only [setRet0]; omega
      · rw [if_pos (Or.inr trivial)]
        simp [delivered, setRet0, List.filterMap_append]
    | false =>
      have hin : inner c (f.t - f.d + 1) f = (f, .brk) := by
        exact inner_rest c f hz ho hx _
      simp only [hin]
      refine ⟨trivial, ho, trivial, hx, by omega, hw, trivial, ?_⟩
      rw [if_neg (by simp; omega)]
      simp

/-- A packet-based fd between two events: nothing in the buffer. Models no code of its own. -/
structure Idle (c : Cfg) (f : RFd) : Prop where
  wf : WF c f
  isOpen : f.isOpen = true
  reg : f.reg = true
  ret0 : f.ret0 = false
  empty : f.d = f.t

/-- What a low-level read of a packet-based fd yields with an empty buffer of the given size: the packet, or nothing if it blocks or fails. Models no code of its own. -/
def packetOf (buff : Nat) (r : RRes) : Option (List Byte) :=
  match lowRead r buff with
  | .bytes bs => some bs
  | _ => none

theorem move_none (c : Cfg) (hc : c.chk = none) (f : RFd) (he : f.d = f.t) : (move c f).t = 0 ∧ (move c f).d = 0 := by
  simp only [move, better, hc, if_true]
  exact ⟨by omega, trivial⟩

/-- The packets of an event are delivered one by one. -/
theorem readData_none (c : Cfg) (hc : c.chk = none) (hp : Passive c) (rs : List RRes) (ps : List (List Byte))
    (hps : rs.map (packetOf c.buff) = ps.map some) (f : RFd) (hw : WF c f) (ho : f.isOpen = true) (hreg : f.reg = true)
    (hr : f.ret0 = true → f.d = f.t) :
    Idle c (readData c f rs).1 ∧
      delivered (readData c f rs).1 = delivered f ++ (if f.d < f.t ∨ f.ret0 = true then [window f] else []) ++ ps := by
  induction rs generalizing f ps with
  | nil =>
    have hps' : ps = [] := by simpa using hps.symm
    subst hps'
    unfold readData
    have h1 := inner_none c hc hp f hw ho hr
    generalize inner c (f.t - f.d + 1) f = r at *
    obtain ⟨h2, h3, h4, h5, h6, h7, -, h8⟩ := h1
    simp only [h2]
    have hm := move_open c r.1
    have hmn := move_none c hc r.1 h6
    have hwg : WF c (request c (move c r.1)) := small_wf c _ _ (small_wf c _ _ h7 .mv) .req
    refine ⟨⟨hwg, ?_, ?_, ?_, ?_⟩, ?_⟩
    · simp only [request]; rw [hm.1]; exact h3
    · simp only [request]; rw [hm.2.1, h4]; exact hreg
    · simp only [request]; rw [hm.2.2.2.1]; exact h5
    · simp only [request]; omega
    · rw [List.append_nil, ← h8]
      simp only [delivered, request]
      rw [hm.2.2.1]
  | cons x xs ih =>
    cases ps with
    | nil => simp at hps
    | cons p ps =>
      simp only [List.map_cons, List.cons.injEq] at hps
      obtain ⟨hp1, hps⟩ := hps
      unfold readData
      have h1 := inner_none c hc hp f hw ho hr
      generalize inner c (f.t - f.d + 1) f = r at *
      obtain ⟨h2, h3, h4, h5, h6, h7, -, h8⟩ := h1
      simp only [h2]
      have hm := move_open c r.1
      have hmn := move_none c hc r.1 h6
      have hwg : WF c (request c (move c r.1)) := small_wf c _ _ (small_wf c _ _ h7 .mv) .req
      have g1 : (request c (move c r.1)).isOpen = true := by simp only [request]; rw [hm.1]; exact h3
      have g2 : (request c (move c r.1)).reg = true := by simp only [request]; rw [hm.2.1, h4]; exact hreg
      have g3 : (request c (move c r.1)).ret0 = false := by simp only [request]; rw [hm.2.2.2.1]; exact h5
      have g4 : (request c (move c r.1)).t = 0 := hmn.1
      have g5 : (request c (move c r.1)).d = 0 := hmn.2
      have g6 : delivered (request c (move c r.1)) = delivered f ++ (if f.d < f.t ∨ f.ret0 = true then [window f] else []) := by
        rw [← h8]; simp only [delivered, request]; rw [hm.2.2.1]
      generalize request c (move c r.1) = g at *
      rw [← g6, g4, Nat.sub_zero]
      simp only [packetOf] at hp1
      cases hl : lowRead x c.buff with
      | again => rw [hl] at hp1; simp at hp1
      | fail e => rw [hl] at hp1; simp at hp1
      | bytes bs =>
        rw [hl] at hp1
        simp only [Option.some.injEq] at hp1
        subst hp1
        simp only
        have hll := lowRead_len _ _ _ hl
        by_cases hne : bs = []
        · subst hne
          rw [if_pos rfl]
          have hw' : WF c (setRet0 g true) := small_wf c g _ hwg .ret0
          have := ih ps hps (setRet0 g true) hw' g1 g2 (fun _ => by simp only [setRet0]; omega)
          refine ⟨this.1, ?_⟩
          have hcnd : (setRet0 g true).d < (setRet0 g true).t ∨ (setRet0 g true).ret0 = true := Or.inr rfl
          rw [this.2, if_pos hcnd]
          have hwin : window (setRet0 g true) = [] := by simp [window, setRet0, g4]
          rw [hwin]
          have : delivered (setRet0 g true) = delivered g := rfl
          simp [this]
        · rw [if_neg hne]
          have hlen : bs.length ≤ c.buff - g.t := by omega
          have hw' : WF c (store g bs) := small_wf c g _ hwg (.store bs hne hlen)
          have hso := store_open g bs
          have hst : (store g bs).t = bs.length ∧ (store g bs).d = 0 := by
            have := hwg.len
            simp only [store]
            rw [if_pos (by omega)]
            simp only
            omega
          have hbl : 0 < bs.length := by
            rcases Nat.eq_zero_or_pos bs.length with h | h
            · exact absurd (List.eq_nil_of_length_eq_zero h) hne
            · exact h
          have := ih ps hps (store g bs) hw' (by rw [hso.1]; exact g1) (by rw [hso.2.1]; exact g2)
            (fun h => by rw [hso.2.2.2, g3] at h; simp at h)
          refine ⟨this.1, ?_⟩
          rw [this.2, if_pos (Or.inl (by omega)), store_window c g bs hwg hlen]
          have hwin : window g = [] := by simp [window, g4]
          have hdl : delivered (store g bs) = delivered g := by simp [delivered, hso]
          simp [hwin, hdl]

/-- A history of events of a packet-based fd, each with the datagrams that had arrived. Models no code of its own. -/
def dgramOps (ds : List (List (List Byte))) : List Op := ds.map (fun b => .readable (b.map .dgram))

/-- **C105.**  On an fd registered without a check function, every datagram of at most the registered size is delivered exactly once,
whole, alone, in order, including empty ones, however the datagrams are spread over events. -/
theorem C105_datagrams_partial (c : Cfg) (hc : c.chk = none) (hp : Passive c) (mem : List Byte) (hm : mem.length = c.buff)
    (ds : List (List (List Byte))) (hd : ∀ b ∈ ds, ∀ d ∈ b, d.length ≤ c.size) :
    delivered (run c (init mem) (dgramOps ds)) = ds.flatten := by
  have key : ∀ (ds : List (List (List Byte))) (f : RFd), (∀ b ∈ ds, ∀ d ∈ b, d.length ≤ c.size) → Idle c f →
      delivered (run c f (dgramOps ds)) = delivered f ++ ds.flatten := by
    intro ds
    induction ds with
    | nil => intro f _ _; simp [dgramOps, run]
    | cons b ds ih =>
      intro f hd hi
      have hps : (b.map RRes.dgram).map (packetOf c.buff) = b.map some := by
        rw [List.map_map]
        apply List.map_congr_left
        intro d hdb
        have h1 := hd b (by simp) d hdb
        have h2 := maxPkt_ge c
        have h3 : c.buff = c.maxPkt := by simp [Cfg.buff, hc]
        simp only [Function.comp, packetOf, lowRead]
        rw [List.take_of_length_le (by omega)]
      have h := readData_none c hc hp (b.map .dgram) b hps f hi.wf hi.isOpen hi.reg (fun _ => hi.empty)
      have he : ¬ (f.d < f.t ∨ f.ret0 = true) := by
        have h1 := hi.empty
        have h2 := hi.ret0
        rintro (h | h)
        · omega
        · rw [h2] at h; simp at h
      rw [if_neg he, List.append_nil] at h
      have hs : run c f (dgramOps (b :: ds)) = run c (readData c f (b.map .dgram)).1 (dgramOps ds) := by
        simp only [dgramOps, List.map_cons, run, step]
        rw [if_pos hi.reg]
      rw [hs, ih _ (fun b' hb => hd b' (by simp [hb])) h.1, h.2, List.flatten_cons, List.append_assoc]
  have h := key ds (init mem) hd ⟨wf_init c mem hm, rfl, rfl, rfl, rfl⟩
  simpa [delivered, init] using h

/-- **C105** fails for a larger datagram: it is delivered cut to the (rounded up) registered size. -/
theorem C105_truncated (c : Cfg) (hc : c.chk = none) (hp : Passive c) (mem : List Byte) (hm : mem.length = c.buff) (d : List Byte)
    (hd : c.maxPkt < d.length) : delivered (run c (init mem) [.readable [.dgram d]]) = [d.take c.maxPkt] ∧ d.take c.maxPkt ≠ d := by
  have hb : c.buff = c.maxPkt := by simp [Cfg.buff, hc]
  have h := readData_none c hc hp [.dgram d] [d.take c.maxPkt] (by simp [packetOf, lowRead, hb]) (init mem) (wf_init c mem hm) rfl rfl (by simp [init])
  refine ⟨?_, ?_⟩
  · have hs : run c (init mem) [.readable [.dgram d]] = (readData c (init mem) [.dgram d]).1 := by simp [run, step, init]
    rw [hs, h.2]
    simp [init, delivered]
  · intro he
    have := congrArg List.length he
    simp only [List.length_take] at this
    omega

/-- On an fd registered without a check function, one event does not end while reads return 0: a stream at its end, or (with the accepted
size 0) a stream with data, is read again and again, with an empty packet delivered each time. -/
theorem C105_spin (c : Cfg) (hc : c.chk = none) (hp : Passive c) (mem : List Byte) (hm : mem.length = c.buff) (n : Nat) :
    delivered (run c (init mem) [.readable (List.replicate n .eof)]) = List.replicate n [] ∧
      (c.size = 0 → ∀ b k, delivered (run c (init mem) [.readable (List.replicate n (.stream b k))]) = List.replicate n []) := by
  have hb : c.buff = c.maxPkt := by simp [Cfg.buff, hc]
  refine ⟨?_, fun h0 b k => ?_⟩
  · have h := readData_none c hc hp (List.replicate n .eof) (List.replicate n []) (by simp [packetOf, lowRead]) (init mem) (wf_init c mem hm) rfl rfl
      (by simp [init])
    have hs : run c (init mem) [.readable (List.replicate n .eof)] = (readData c (init mem) (List.replicate n .eof)).1 := by simp [run, step, init]
    rw [hs, h.2]
    simp [init, delivered]
  · have hz : c.buff = 0 := by rw [hb]; simp [Cfg.maxPkt, h0]
    have h := readData_none c hc hp (List.replicate n (.stream b k)) (List.replicate n []) (by simp [packetOf, lowRead, hz]) (init mem)
      (wf_init c mem hm) rfl rfl (by simp [init])
    have hs : run c (init mem) [.readable (List.replicate n (.stream b k))] = (readData c (init mem) (List.replicate n (.stream b k))).1 := by
      simp [run, step, init]
    rw [hs, h.2]
    simp [init, delivered]

/-! ## C106: the end of a stream -/

/-- **C106**, no false report: with a check function of a protocol whose packets fit, and no end of file, every delivered packet is non-empty. -/
theorem C106_no_false_eof_partial (c : Cfg) (k : List Byte → Int) (hk : c.chk = some k) (hv : c.valid = true) (hg : Good k c.size) (mem : List Byte)
    (hm : mem.length = c.buff) (ops : List Op) (hs : StreamOnly ops) : ∀ p ∈ delivered (run c (init mem) ops), p ≠ [] := by
  have hw0 := wf_init c mem hm
  have hst := run_star c ops (init mem) (fun _ => rfl)
  have hr0 := run_ret0 c k hk hv hg ops hs (init mem) hw0 (fun _ => rfl) rfl
  obtain ⟨-, he⟩ := Star.preserves (P := fun f => WF c f ∧ Ext k f) (small_ext c k hk hg) hst
    ⟨hw0, fun _ => ⟨[], fun _ => by simp [window, init], fun x => by simpa [delivered, init] using Split.nil x⟩⟩
  obtain ⟨w, -, hw2⟩ := he hr0
  exact (hw2 []).nonempty

theorem inner_eof (c : Cfg) (k : List Byte → Int) (hk : c.chk = some k) (hp : Passive c) (f : RFd) (ho : f.isOpen = true) (hr : f.ret0 = true)
    (hu : f.d < f.t → k (window f) = 0) (hle : f.d ≤ f.t) (fuel : Nat) :
    (inner c (fuel + 1) f).2 = .ret 0 ∧ delivered (inner c (fuel + 1) f).1 = delivered f ++ [[]] ∧ (inner c (fuel + 1) f).1.isOpen = true ∧
      (inner c (fuel + 1) f).1.reg = f.reg ∧ (inner c (fuel + 1) f).1.d = f.d ∧ (inner c (fuel + 1) f).1.t = f.t ∧
      (inner c (fuel + 1) f).1.mem = f.mem ∧ (inner c (fuel + 1) f).1.ret0 = true := by
  have hchk : (checkPkt c f).2 = 0 ∧ (checkPkt c f).1.isOpen = true ∧ (checkPkt c f).1.reg = f.reg ∧ delivered (checkPkt c f).1 = delivered f := by
    by_cases hlt : f.d < f.t
    · refine ⟨by rw [checkPkt_some c f k hk hlt]; exact hu hlt, ?_⟩
      simp only [checkPkt, hk]
      rw [if_pos (by omega), delivered_chk, call_passive c hp]
      exact ⟨ho, rfl, rfl⟩
    · rw [checkPkt_empty c f hlt]
      exact ⟨by simp only; omega, ho, rfl, rfl⟩
  obtain ⟨s1, s2, s3, s4, s5⟩ := checkPkt_same c f
  simp only [inner]
  generalize checkPkt c f = r at *
  obtain ⟨h1, h2, h3, h4⟩ := hchk
  rw [if_neg (by simp [h2]), h1, if_neg (by omega)]
  rw [if_pos (Or.inr (by rw [s3]; exact hr)), call_passive c hp]
  rw [if_neg (by simp [h2]), if_pos (by simp only [advance]; rw [s3]; exact hr), if_pos (by simp [hk])]
  refine ⟨rfl, ?_, h2, h3, ?_, s2, s5, ?_⟩
  · rw [← h4]; simp [delivered, advance, List.filterMap_append]
  · simp only [advance]; rw [s1]; rfl
  · simp only [advance]; rw [s3]; exact hr

/-- **C106**, it is reported: when the read of a stream returns 0, the event ends with an empty packet being delivered, whatever is left incomplete in the buffer. -/
theorem C106_reported_partial (c : Cfg) (k : List Byte → Int) (hk : c.chk = some k) (hv : c.valid = true) (hg : Good k c.size) (hp : Passive c)
    (mem : List Byte) (hm : mem.length = c.buff) (ops : List Op) (hs : StreamOnly ops) (hreg : (run c (init mem) ops).reg = true) :
    delivered (step c (run c (init mem) ops) (.readable [.eof])) = delivered (run c (init mem) ops) ++ [[]] := by
  have hw0 := wf_init c mem hm
  have hst := run_star c ops (init mem) (fun _ => rfl)
  have hr0 := run_ret0 c k hk hv hg ops hs (init mem) hw0 (fun _ => rfl) rfl
  have hopen := Star.preserves (P := fun f => f.reg = true → f.isOpen = true) (small_reg c) hst (fun _ => rfl) hreg
  have hu := run_undecided c k hk ops (init mem) hw0 (fun _ => rfl) (fun _ _ h => by simp [init] at h) hreg hr0
  have hw := Star.preserves (small_wf c) hst hw0
  generalize run c (init mem) ops = f at *
  simp only [step, if_pos hreg]
  unfold readData
  obtain ⟨h1, h2⟩ := inner_spec c (f.t - f.d + 1) f hopen (by omega)
  -- the first inner loop does nothing but ask the check function
  have hin : (inner c (f.t - f.d + 1) f).2 = .brk ∧ delivered (inner c (f.t - f.d + 1) f).1 = delivered f := by
    have hchk : (checkPkt c f).2 = 0 ∧ (checkPkt c f).1.isOpen = true ∧ delivered (checkPkt c f).1 = delivered f := by
      by_cases hlt : f.d < f.t
      · refine ⟨by rw [checkPkt_some c f k hk hlt]; exact hu hlt, ?_⟩
        simp only [checkPkt, hk]
        rw [if_pos (by omega), delivered_chk, call_passive c hp]
        exact ⟨hopen, rfl⟩
      · rw [checkPkt_empty c f hlt]
        have := hw.le
        exact ⟨by simp only; omega, hopen, rfl⟩
    obtain ⟨-, -, s3, -, -⟩ := checkPkt_same c f
    simp only [inner]
    generalize checkPkt c f = r at *
    obtain ⟨h1, h2, h4⟩ := hchk
    rw [if_neg (by simp [h2]), h1, if_neg (by omega)]
    rw [hr0] at s3
    have hz : Int.toNat 0 = 0 := rfl
    have ha : advance r.1 0 = r.1 := rfl
    simp only [s3, hz, h2, ha]
    simp [s3, h2, ha, h4]
  generalize inner c (f.t - f.d + 1) f = r at *
  obtain ⟨hb, hdl⟩ := hin
  obtain ⟨j1, j2, j3, -⟩ := h2 hb
  have hwr : WF c r.1 := Star.preserves (small_wf c) h1 hw
  have hwg : WF c (request c (move c r.1)) := small_wf c _ _ (small_wf c _ _ hwr .mv) .req
  have g1 : (request c (move c r.1)).isOpen = true := by simp only [request]; rw [(move_open c r.1).1]; exact j1
  have g3 : (request c (move c r.1)).d < (request c (move c r.1)).t → k (window (request c (move c r.1))) = 0 := by
    intro hlt
    have h1' : window (request c (move c r.1)) = window (move c r.1) := rfl
    rw [h1', move_window c r.1 hwr]
    apply j3 k hk
    have l1 := window_length c r.1 hwr
    have l2 := window_length c _ (small_wf c _ _ hwr .mv)
    rw [move_window c r.1 hwr] at l2
    have : (move c r.1).d < (move c r.1).t := hlt
    omega
  have g4 : delivered (request c (move c r.1)) = delivered f := by
    rw [← hdl]; simp only [delivered, request]; rw [(move_open c r.1).2.2.1]
  simp only [hb]
  generalize request c (move c r.1) = g at *
  simp only [lowRead, if_true]
  unfold readData
  obtain ⟨e1, e2, -⟩ := inner_eof c k hk hp (setRet0 g true) g1 rfl g3 hwg.le ((setRet0 g true).t - (setRet0 g true).d)
  simp only [e1]
  rw [e2, ← g4]
  rfl

/-- Once a read has returned 0, nothing is ever read from the fd again, whatever arrives. -/
theorem C106_final (c : Cfg) (k : List Byte → Int) (hk : c.chk = some k) (f : RFd) (hr : f.ret0 = true) (hro : f.reg = true → f.isOpen = true)
    (ops : List Op) : (run c f ops).reqs = f.reqs ∧ (run c f ops).got = f.got := by
  induction ops generalizing f with
  | nil => exact ⟨rfl, rfl⟩
  | cons op ops ih =>
    have hst := step_star c f op hro
    have hro' := Star.preserves (P := fun f => f.reg = true → f.isOpen = true) (small_reg c) hst hro
    have hstep : (step c f op).ret0 = true ∧ (step c f op).reqs = f.reqs ∧ (step c f op).got = f.got := by
      cases op with
      | close => simp only [step]; split <;> exact ⟨hr, rfl, rfl⟩
      | readable rs =>
        simp only [step]
        split
        · rename_i hreg
          have h0 := inner_ret0 c (f.t - f.d + 1) f (by simp [hk])
          have hs := inner_same c (f.t - f.d + 1) f
          have h2 := (inner_spec c (f.t - f.d + 1) f (hro hreg) (by omega)).2
          unfold readData
          generalize inner c (f.t - f.d + 1) f = r at *
          cases hx : r.2 with
          | ret e => simp only [hx]; exact ⟨by rw [h0, hr], hs.2.1, hs.1⟩
          | brk =>
            have := (h2 hx).2.1
            rw [h0, hr] at this
            simp at this
        · exact ⟨hr, rfl, rfl⟩
    obtain ⟨i1, i2⟩ := ih _ hstep.1 hro'
    simp only [run]
    exact ⟨i1.trans hstep.2.1, i2.trans hstep.2.2⟩

/-- A check function that waits for more than the buffer can hold: every packet is longer than 5000 bytes. -/
def hugeChk (w : List Byte) : Int := if 5000 ≤ w.length then 5000 else 0

/-- For the statements and proofs about the models imported; models no code of its own. -/
def hugeCfg : Cfg := ⟨some hugeChk, 1024, fun _ => false, fun _ => false⟩

theorem hugeCfg_passive : Passive hugeCfg := ⟨fun _ => rfl, fun _ => rfl⟩

/-- The state after a full buffer of an incomplete packet has been received. Models no code of its own. -/
def fullBuf (b : List Byte) : RFd := ⟨b, 0, 2048, false, true, true, [], [], b, false⟩

/-- **C106** fails: when an incomplete packet fills the buffer, the loop asks for 0 bytes, takes the returned 0 for the end of the stream and
reports it, although the stream goes on; and (`C106_final`) the fd is never read again. -/
theorem C106_spurious (b : List Byte) (hb : b.length = 2048) (more : List Byte) (n : Nat) :
    hugeCfg.valid = true ∧ window (fullBuf b) = b ∧
    delivered (step hugeCfg (fullBuf b) (.readable [.stream more n])) = [[]] ∧
      (step hugeCfg (fullBuf b) (.readable [.stream more n])).got = b := by
  have hbuf : hugeCfg.buff = 2048 := by decide
  have hw : WF hugeCfg (fullBuf b) := ⟨by rw [hbuf]; exact hb, by simp [fullBuf], by simp [fullBuf, hbuf], rfl, by simp [fullBuf]⟩
  have hwin : window (fullBuf b) = b := by simp only [window, fullBuf, List.drop_zero]; exact List.take_of_length_le (by omega)
  have hk0 : ∀ f : RFd, WF hugeCfg f → hugeChk (window f) = 0 := by
    intro f hf
    have := window_length hugeCfg f hf
    have h2 := hf.tail
    rw [hbuf] at h2
    simp only [hugeChk]
    rw [if_neg (by omega)]
  refine ⟨by decide, hwin, ?_⟩
  have hs : step hugeCfg (fullBuf b) (.readable [.stream more n]) = (readData hugeCfg (fullBuf b) [.stream more n]).1 := by simp [step, fullBuf]
  rw [hs]
  have hin : inner hugeCfg ((fullBuf b).t - (fullBuf b).d + 1) (fullBuf b) = ({ fullBuf b with log := [.chk b] }, .brk) := by
    have hc : checkPkt hugeCfg (fullBuf b) = ({ fullBuf b with log := [.chk b] }, 0) := by
      simp only [checkPkt, hugeCfg]
      rw [if_pos (by simp [fullBuf]), hk0 _ hw, hwin]
      simp [call, fullBuf]
    simp only [inner, hc]
    simp [fullBuf, advance]
  have hmv : move hugeCfg { fullBuf b with log := [.chk b] } = { fullBuf b with log := [.chk b] } := by
    have hx : window { fullBuf b with log := [.chk b] } = b := hwin
    simp only [move]
    split
    · rw [hx]
      simp only [fullBuf, hb]
      have : b.drop 2048 = [] := List.drop_eq_nil_of_le (by omega)
      rw [this]; simp
    · rfl
  unfold readData
  simp only [hin, hmv]
  have hz : hugeCfg.buff - (request hugeCfg { fullBuf b with log := [.chk b] }).t = 0 := by rw [hbuf]; rfl
  rw [hz]
  simp only [lowRead, if_true]
  generalize hg : setRet0 (request hugeCfg { fullBuf b with log := [.chk b] }) true = g
  have hgw : WF hugeCfg g := by
    rw [← hg]
    refine small_wf _ _ _ (small_wf _ _ _ ?_ .req) .ret0
    exact wf_congr _ _ _ hw ⟨rfl, rfl, rfl, rfl, rfl⟩
  obtain ⟨e1, e2, -⟩ := inner_eof hugeCfg hugeChk rfl hugeCfg_passive g (by rw [← hg]; rfl) (by rw [← hg]; rfl) (fun _ => hk0 g hgw) hgw.le (g.t - g.d)
  have hsame := inner_same hugeCfg (g.t - g.d + 1) g
  unfold readData
  simp only [e1]
  rw [e2, hsame.1]
  rw [← hg]
  simp [delivered, setRet0, request, fullBuf]

/-- Such a state is reached by a history: 2048 bytes of a stream arrive. -/
theorem C106_spurious_reachable (b mem : List Byte) (hb : b.length = 2048) (hm : mem.length = 2048) :
    ∃ ops : List Op, StreamOnly ops ∧ (run hugeCfg (init mem) ops).mem = b ∧ (run hugeCfg (init mem) ops).d = 0 ∧ (run hugeCfg (init mem) ops).t = 2048 ∧
      (run hugeCfg (init mem) ops).ret0 = false ∧ (run hugeCfg (init mem) ops).reg = true ∧ delivered (run hugeCfg (init mem) ops) = [] ∧
      (run hugeCfg (init mem) ops).got = b := by
  have hbuf : hugeCfg.buff = 2048 := by decide
  refine ⟨[.readable [.stream b 2047]], ?_, ?_⟩
  · intro op ho rs he r hr
    simp only [List.mem_singleton] at ho
    subst ho
    injection he with he
    subst he
    simp only [List.mem_singleton] at hr
    exact Or.inl ⟨b, 2047, hr⟩
  have hs : run hugeCfg (init mem) [.readable [.stream b 2047]] = (readData hugeCfg (init mem) [.stream b 2047]).1 := by simp [run, step, init]
  rw [hs]
  have hin : inner hugeCfg ((init mem).t - (init mem).d + 1) (init mem) = (init mem, .brk) := by
    simp [inner, checkPkt, hugeCfg, init, advance]
  have hmv : move hugeCfg (init mem) = init mem := by
    have hbt : better hugeCfg (init mem) = false := by
      simp [better, hugeCfg, init, Cfg.maxPkt]
    simp [move, hbt]
  unfold readData
  simp only [hin, hmv]
  have hne : b ≠ [] := by intro h; rw [h] at hb; simp at hb
  have hlr : lowRead (.stream b 2047) (hugeCfg.buff - (request hugeCfg (init mem)).t) = .bytes b := by
    rw [hbuf]
    have ht : (request hugeCfg (init mem)).t = 0 := rfl
    rw [ht]
    simp only [lowRead]
    rw [if_neg (by decide), if_neg hne, List.take_of_length_le (by omega)]
  rw [hlr]
  simp only [if_neg hne]
  have hst : store (request hugeCfg (init mem)) b = { fullBuf b with reqs := [(0, 2048)] } := by
    unfold store
    rw [if_pos (by simp only [request, init, hb, hm]; omega)]
    have : mem.drop (0 + b.length) = [] := List.drop_eq_nil_of_le (by omega)
    simp only [Nat.zero_add] at this
    simp [fullBuf, request, init, hb, hbuf, hm]
  rw [hst]
  unfold readData
  have hw : WF hugeCfg { fullBuf b with reqs := [(0, 2048)] } :=
    ⟨by rw [hbuf]; exact hb, by simp [fullBuf], by simp [fullBuf, hbuf], rfl, by simp [fullBuf, hbuf]⟩
  have hwin : window { fullBuf b with reqs := [(0, 2048)] } = b := by
    simp only [window, fullBuf, List.drop_zero]; exact List.take_of_length_le (by omega)
  have hin2 : inner hugeCfg (({ fullBuf b with reqs := [(0, 2048)] } : RFd).t - ({ fullBuf b with reqs := [(0, 2048)] } : RFd).d + 1)
      { fullBuf b with reqs := [(0, 2048)] } = ({ fullBuf b with reqs := [(0, 2048)], log := [.chk b] }, .brk) := by
    have hc : checkPkt hugeCfg { fullBuf b with reqs := [(0, 2048)] } = ({ fullBuf b with reqs := [(0, 2048)], log := [.chk b] }, 0) := by
      simp only [checkPkt, hugeCfg]
      rw [if_pos (by simp [fullBuf]), hwin]
      have : hugeChk b = 0 := by simp [hugeChk, hb]
      rw [this]
      simp [call, fullBuf]
    simp only [inner, hc]
    simp [fullBuf, advance]
  simp only [hin2]
  have hx : window { fullBuf b with reqs := [(0, 2048)], log := [.chk b] } = b := hwin
  have hmv2 : move hugeCfg { fullBuf b with reqs := [(0, 2048)], log := [.chk b] } = { fullBuf b with reqs := [(0, 2048)], log := [.chk b] } := by
    simp only [move]
    split
    · rw [hx]
      have : b.drop b.length = [] := List.drop_eq_nil_of_le (by omega)
      simp [fullBuf, this]
    · rfl
  rw [hmv2]
  simp [request, fullBuf, delivered]

/-! ## C107: callbacks after a close -/

/-- The invariant for C107. -/
structure Quiet (c : Cfg) (f : RFd) : Prop where
  same : f.isOpen = f.reg
  opened : f.isOpen = true → ∀ l, l <+: f.log → c.closes l = true → l = []
  closed : ∀ l, l <+: f.log → c.closes l = true → l = [] ∨ l = f.log

theorem prefix_snoc (l a : List Cb) (x : Cb) (h : l <+: a ++ [x]) : l <+: a ∨ l = a ++ [x] := by
  rcases List.prefix_concat_iff.1 h with h | h
  · exact Or.inr h
  · exact Or.inl h

theorem quiet_call (c : Cfg) (hd : ∀ l, c.dels l = false) (f : RFd) (cb : Cb) (hq : Quiet c f) (ho : f.isOpen = true) : Quiet c (call c f cb) := by
  have hreg : f.reg = true := by rw [← hq.same]; exact ho
  by_cases hc : c.closes (f.log ++ [cb]) = true
  · have : call c f cb = { f with log := f.log ++ [cb], isOpen := false, reg := false } := by simp [call, hc, hreg]
    rw [this]
    refine ⟨rfl, by simp, fun l hl hcl => ?_⟩
    rcases prefix_snoc l f.log cb hl with h | h
    · exact Or.inl (hq.opened ho l h hcl)
    · exact Or.inr h
  · have : call c f cb = { f with log := f.log ++ [cb] } := by simp [call, hc, hd]
    rw [this]
    refine ⟨hq.same, fun _ l hl hcl => ?_, fun l hl hcl => ?_⟩
    · rcases prefix_snoc l f.log cb hl with h | h
      · exact hq.opened ho l h hcl
      · rw [h] at hcl; exact absurd hcl hc
    · rcases prefix_snoc l f.log cb hl with h | h
      · exact Or.inl (hq.opened ho l h hcl)
      · exact Or.inr h

theorem small_quiet (c : Cfg) (hd : ∀ l, c.dels l = false) (f g : RFd) (hq : Quiet c f) (h : Small c f g) : Quiet c g := by
  cases h with
  | chk k h1 h2 h3 => exact quiet_call c hd f _ hq h1
  | err e h1 =>
    have h2 := quiet_call c hd f (.error e) hq h1
    simp only [eventAndClose, if_pos h1]
    split
    · exact ⟨rfl, by simp, h2.closed⟩
    · exact h2
  | data n h1 h2 h3 h4 h5 h6 =>
    have h7 := quiet_call c hd f (.data ((window f).take n)) hq h1
    exact ⟨h7.same, h7.opened, h7.closed⟩
  | dataClosed n h1 h2 h3 h4 h5 => exact quiet_call c hd f _ hq h1
  | clr _ => exact ⟨hq.same, hq.opened, hq.closed⟩
  | mv =>
    have hm := move_open c f
    exact ⟨by rw [hm.1, hm.2.1]; exact hq.same, by rw [hm.1, hm.2.2.1]; exact hq.opened, by rw [hm.2.2.1]; exact hq.closed⟩
  | req => exact ⟨hq.same, hq.opened, hq.closed⟩
  | ret0 => exact ⟨hq.same, hq.opened, hq.closed⟩
  | store bs _ _ =>
    have hm := store_open f bs
    exact ⟨by rw [hm.1, hm.2.1]; exact hq.same, by rw [hm.1, hm.2.2.1]; exact hq.opened, by rw [hm.2.2.1]; exact hq.closed⟩
  | close => exact ⟨rfl, by simp, hq.closed⟩

/-- **C107**, for `aosl_close`: the first callback that closes the fd is the last callback made for it, for all histories. -/
theorem C107_close_partial (c : Cfg) (hd : ∀ l, c.dels l = false) (mem : List Byte) (ops : List Op) (l : List Cb) (hl : l ≠ [])
    (hp : l <+: (run c (init mem) ops).log) (hc : c.closes l = true) : l = (run c (init mem) ops).log := by
  have hq : Quiet c (run c (init mem) ops) :=
    Star.preserves (small_quiet c hd) (run_star c ops (init mem) (fun _ => rfl))
      ⟨rfl, fun _ l hl _ => by simpa [init] using hl, fun l hl _ => Or.inl (by simpa [init] using hl)⟩
  rcases hq.closed l hp hc with h | h
  · exact absurd h hl
  · exact h

/-- An fd whose data callback unregisters it at the first packet. Models no code of its own. -/
def delCfg : Cfg := ⟨none, 8, fun _ => false, fun l => decide (l.length = 1)⟩

/-- **C107** fails for `aosl_mpq_del_fd`: after the data callback has unregistered the fd, the loop goes on reading it and delivering packets. -/
theorem C107_del_continues : (run delCfg (init (List.replicate 8 0)) [.readable [.dgram [1], .dgram [2], .dgram [3]]]).log = [.data [1], .data [2], .data [3]] ∧
    delCfg.dels [.data [1]] = true := by decide +kernel

/-! ## Examples -/

/-- A protocol: the first byte is the length of the packet, including itself. Models no code of its own. -/
def lenChk (w : List Byte) : Int :=
  match w with
  | [] => 0
  | b :: _ => if b = 0 then -1 else if b.toNat ≤ w.length then b.toNat else 0

theorem lenChk_good : Good lenChk 1024 := by
  refine ⟨?_, ?_⟩
  · intro w x h1 h2
    cases w with
    | nil => simp [lenChk] at h1
    | cons b w =>
      simp only [lenChk, List.cons_append, List.length_cons, List.length_append] at h1 h2 ⊢
      by_cases hb : b = 0
      · rw [if_pos hb] at h1; omega
      · rw [if_neg hb] at h1 h2 ⊢
        rw [if_neg hb]
        by_cases hl : b.toNat ≤ w.length + 1
        · rw [if_pos hl, if_pos (by omega)]
        · rw [if_neg hl] at h1; omega
  · intro w hw
    cases w with
    | nil => simp at hw
    | cons b w =>
      have hlt : b.toNat < 256 := b.toNat_lt
      simp only [lenChk, List.length_cons] at hw ⊢
      by_cases hb : b = 0
      · rw [if_pos hb]; omega
      · rw [if_neg hb, if_pos (by omega)]
        intro h
        apply hb
        have : b.toNat = 0 := by omega
        exact UInt8.toNat_inj.1 (by simpa using this)

/-- For the statements and proofs about the models imported; models no code of its own. -/
def lenCfg : Cfg := ⟨some lenChk, 1024, fun _ => false, fun _ => false⟩

/-- For the statements and proofs about the models imported; models no code of its own. -/
def buf0 : List Byte := List.replicate 2048 0

/-- Three packets arriving in five reads over three events. Models no code of its own. -/
def exOps : List Op :=
  [.readable [.stream [3] 0, .stream [7, 8, 2] 9], .readable [.again], .readable [.stream [5, 4, 1, 1, 1] 1, .stream [1, 1, 1] 3, .again]]

/-- The same bytes in one read. Models no code of its own. -/
def exOps2 : List Op := [.readable [.stream [3, 7, 8, 2, 5, 4, 1, 1, 1] 20]]

/-- A check of `StreamOnly` by evaluation. Models no code of its own. -/
def streamB (ops : List Op) : Bool :=
  ops.all (fun | .readable rs => rs.all (fun | .stream _ _ => true | .again => true | .fail _ => true | _ => false) | .close => true)

theorem streamOnly_of (ops : List Op) (h : streamB ops = true) : StreamOnly ops := by
  intro op ho rs he r hr
  subst he
  have h1 := List.all_eq_true.1 h _ ho
  have h2 := List.all_eq_true.1 h1 r hr
  cases r with
  | stream b n => exact Or.inl ⟨b, n, rfl⟩
  | again => exact Or.inr (Or.inl rfl)
  | fail e => exact Or.inr (Or.inr ⟨e, rfl⟩)
  | dgram b => simp at h2
  | eof => simp at h2

theorem ex_streamOnly : StreamOnly exOps ∧ StreamOnly exOps2 := ⟨streamOnly_of _ rfl, streamOnly_of _ rfl⟩

set_option maxRecDepth 20000 in
example : lenCfg.valid = true ∧ buf0.length = lenCfg.buff ∧ (run lenCfg (init buf0) exOps).reg = true ∧
    delivered (run lenCfg (init buf0) exOps) = [[3, 7, 8], [2, 5], [4, 1, 1, 1]] ∧
    (run lenCfg (init buf0) exOps).got = [3, 7, 8, 2, 5, 4, 1, 1, 1] := by
  decide +kernel

set_option maxRecDepth 20000 in
example : (run lenCfg (init buf0) exOps2).reg = true ∧ (run lenCfg (init buf0) exOps2).got = (run lenCfg (init buf0) exOps).got ∧
    delivered (run lenCfg (init buf0) exOps2) = delivered (run lenCfg (init buf0) exOps) := by
  decide +kernel

/-- A protocol error closes the fd after the packets before it. -/
example : (run lenCfg (init buf0) [.readable [.stream [2, 9, 0, 5] 9]]).log = [.chk [2, 9, 0, 5], .data [2, 9], .chk [0, 5], .error (-1)] ∧
    (run lenCfg (init buf0) [.readable [.stream [2, 9, 0, 5] 9]]).isOpen = false := by
  decide +kernel

/-- Datagrams over two events, one of them empty. Models no code of its own. -/
def dgCfg : Cfg := ⟨none, 8, fun _ => false, fun _ => false⟩

example : Passive dgCfg ∧ (List.replicate 8 0 : List Byte).length = dgCfg.buff ∧
    delivered (run dgCfg (init (List.replicate 8 0)) (dgramOps [[[1, 2], []], [[3]]])) = [[1, 2], [], [3]] :=
  ⟨⟨fun _ => rfl, fun _ => rfl⟩, by decide +kernel, by decide +kernel⟩

/-- C106: the end is reported again at every later event. -/
theorem C106_repeated : delivered (run lenCfg (init buf0) [.readable [.stream [5, 1] 9, .eof], .readable [.eof], .readable [.stream [1, 1, 1] 9]]) = [[], [], []] := by
  decide +kernel

/-- A callback that closes at the second packet. Models no code of its own. -/
def closeCfg : Cfg := ⟨none, 8, fun l => decide (l.length = 2), fun _ => false⟩

example : (run closeCfg (init (List.replicate 8 0)) [.readable [.dgram [1], .dgram [2], .dgram [3]]]).log = [.data [1], .data [2]] := by decide +kernel

end Verif.IoRead
