import Verif.IoBoth
import Verif.IoErrProps

/-!
# Events of an fd: errors, connects, listening sockets

Properties C122 (whole dispatch), C124, C126, C127.
-/

namespace Verif.IoBoth

open Verif.IoRead

/-! ## C124: a listening socket -/

/-- A quiet fd without a packet check: nothing buffered. -/
structure Quiet (n : Nat) (f : RFd) : Prop where
  len : f.mem.length = n
  dt : f.d = f.t
  ret0 : f.ret0 = false
  op : f.isOpen = true
  reg : f.reg = true

/-- The callbacks leave the fd alone. -/
def idle : List Cb → Bool := fun _ => false

theorem call_idle (n : Nat) (f : RFd) (cb : Cb) : call ⟨none, n, idle, idle⟩ f cb = { f with log := f.log ++ [cb] } := by
  simp [call, idle]

theorem inner_quiet (c : Cfg) (hc : c.chk = none) (fuel : Nat) (f : RFd) (h : f.d = f.t) (h0 : f.ret0 = false) (ho : f.isOpen = true) :
    inner c (fuel + 1) f = (f, .brk) := by
  cases f
  simp_all [inner, checkPkt, advance, setRet0]

/-- One accepted connection. -/
theorem read_conn (f : RFd) (hq : Quiet 32 f) (d : List Byte) (hd : d ≠ []) (hl : d.length ≤ 32) (rs : List RRes) :
    ∃ g, Quiet 32 g ∧ g.log = f.log ++ [.data d] ∧
      readData ⟨none, 32, idle, idle⟩ f (.dgram d :: rs) = readData ⟨none, 32, idle, idle⟩ g rs := by
  obtain ⟨mem, d0, t0, ret0, isOpen, reg, log, reqs, got, oob⟩ := f
  obtain ⟨h1, h2, h3, h4, h5⟩ := hq
  simp only at h1 h2 h3 h4 h5
  subst h2 h3 h4 h5
  have hp : 0 < d.length := List.length_pos_iff.2 hd
  let g1 : RFd := ⟨d ++ mem.drop d.length, 0, d.length, false, true, true, log, reqs ++ [(0, 32)], got ++ d, oob⟩
  have e1 : readData ⟨none, 32, idle, idle⟩ ⟨mem, d0, d0, false, true, true, log, reqs, got, oob⟩ (.dgram d :: rs) =
      readData ⟨none, 32, idle, idle⟩ g1 rs := by
    have hb : (32 : Nat) = Cfg.buff ⟨none, 32, idle, idle⟩ := rfl
    rw [readData, inner_quiet _ rfl _ _ rfl rfl rfl]
    simp only [move, better, if_true, window, Nat.sub_self, List.take_zero, List.nil_append, List.length_nil, List.drop_zero, request, ← hb, Nat.sub_zero, lowRead,
      List.take_of_length_le hl, if_neg hd]
    simp [store, h1, hl, g1]
  have hw : window g1 = d := by
    simp [g1, window]
  let g2 : RFd := ⟨d ++ mem.drop d.length, d.length, d.length, false, true, true, log ++ [.data d], reqs ++ [(0, 32)], got ++ d, oob⟩
  have e2 : ∀ fuel, inner ⟨none, 32, idle, idle⟩ (fuel + 2) g1 = (g2, .brk) := by
    intro fuel
    have : inner ⟨none, 32, idle, idle⟩ (fuel + 2) g1 = inner ⟨none, 32, idle, idle⟩ (fuel + 1) g2 := by
      rw [inner]
      have hck : checkPkt ⟨none, 32, idle, idle⟩ g1 = (g1, (d.length : Int)) := by simp [checkPkt, g1]
      rw [hck]
      simp only [call_idle, hw]
      have h32 : ¬ ((d.length : Int) < 0 ∨ (d.length : Int) > ((d.length - 0 : Nat) : Int)) := by omega
      simp only [g1, not_true_eq_false, and_false, if_false, h32, Int.toNat_natCast, Bool.false_eq_true, or_false, hp, if_true, List.take_length, advance, Nat.zero_add]
      rw [if_neg (by omega)]
    rw [this]
    exact inner_quiet _ rfl _ _ rfl rfl rfl
  refine ⟨g2, ⟨?_, rfl, rfl, rfl, rfl⟩, rfl, ?_⟩
  · simp [g2]; omega
  · rw [e1]
    have e3 : inner ⟨none, 32, idle, idle⟩ (g1.t - g1.d + 1) g1 = (g2, .brk) := by
      have : g1.t - g1.d + 1 = (d.length - 1) + 2 := by simp [g1]; omega
      rw [this]; exact e2 _
    have e4 : inner ⟨none, 32, idle, idle⟩ (g2.t - g2.d + 1) g2 = (g2, .brk) := inner_quiet _ rfl _ _ rfl rfl rfl
    cases rs <;> rw [readData, readData, e3, e4]

theorem read_conns (ds : List (List Byte)) (h : ∀ d ∈ ds, d ≠ [] ∧ d.length ≤ 32) : ∀ (f : RFd), Quiet 32 f → ∀ rs,
    ∃ g, Quiet 32 g ∧ g.log = f.log ++ ds.map .data ∧
      readData ⟨none, 32, idle, idle⟩ f (ds.map (.dgram ·) ++ rs) = readData ⟨none, 32, idle, idle⟩ g rs := by
  induction ds with
  | nil => intro f hf rs; exact ⟨f, hf, by simp, rfl⟩
  | cons d ds ih =>
    intro f hf rs
    obtain ⟨g, hg, hl, he⟩ := read_conn f hf d (h d (by simp)).1 (h d (by simp)).2 (ds.map (.dgram ·) ++ rs)
    obtain ⟨g', hg', hl', he'⟩ := ih (fun x hx => h x (by simp [hx])) g hg rs
    refine ⟨g', hg', by rw [hl', hl]; simp, ?_⟩
    simp only [List.map_cons, List.cons_append]
    rw [he, he']

/-- **C124** fails, for every listening socket and every number of waiting connections: they are all delivered, and then the answer "no more connections" of the OS is
taken for an error: the error is announced and the listening socket closed. -/
theorem C124_listen_dies (m : Mode) (f : BFd) (hq : Quiet 32 f.r) (ds : List (List Byte)) (h : ∀ d ∈ ds, d ≠ [] ∧ d.length ≤ 32) :
    (dispatch m (listenCfg idle idle) f ⟨false, false, true, false⟩ .blocked ((ds.map Acc.conn ++ [Acc.wouldBlock]).map acceptRes)).seen =
      f.seen ++ ds.map (fun d => .cb (.data d)) ++ [.cb (.error (-2000))] ∧
    (dispatch m (listenCfg idle idle) f ⟨false, false, true, false⟩ .blocked ((ds.map Acc.conn ++ [Acc.wouldBlock]).map acceptRes)).r.isOpen = false := by
  have hrs : (ds.map Acc.conn ++ [Acc.wouldBlock]).map acceptRes = ds.map (.dgram ·) ++ [.fail 2000] := by
    simp [acceptRes]
  rw [hrs]
  obtain ⟨g, hg, hl, he⟩ := read_conns ds h f.r hq [.fail 2000]
  have hr : readData ⟨none, 32, idle, idle⟩ g [.fail 2000] =
      ({ (request ⟨none, 32, idle, idle⟩ (move ⟨none, 32, idle, idle⟩ g)) with log := g.log ++ [.error (-2000)], isOpen := false, reg := false }, .ret (-2000)) := by
    rw [readData, inner_quiet _ rfl _ _ hg.dt hg.ret0 hg.op]
    simp only [lowRead, eventAndClose, call_idle]
    simp [request, move, better, hg.op, hg.reg]
  simp only [listenCfg, dispatch, hq.reg, not_true_eq_false, if_false, Bool.false_eq_true, and_false, if_true, readPart, he, hr]
  simp only [BFd.take, hl]
  simp

/-- The hypotheses are met: two connections waiting. -/
example : Quiet 32 (init (List.replicate 32 0)) ∧ ∀ d ∈ [List.replicate 32 1, List.replicate 32 2], d ≠ [] ∧ d.length ≤ 32 := by
  refine ⟨⟨rfl, rfl, rfl, rfl, rfl⟩, by decide⟩

/-! ## C126: a connect that fails -/

/-- How `f_event_and_close` leaves an open fd. -/
theorem eac_spec (c : Cfg) (f : RFd) (e : Int) (ho : f.isOpen = true) :
    (eventAndClose c f e).log = f.log ++ [.error e] ∧ (eventAndClose c f e).reg = false := by
  unfold eventAndClose
  rw [if_pos ho]
  simp only
  split
  · exact ⟨call_log .., rfl⟩
  · rename_i hc
    refine ⟨call_log .., ?_⟩
    cases hr : (call c f (.error e)).reg with
    | false => rfl
    | true =>
      cases hi : (call c f (.error e)).isOpen with
      | false => rw [call_closed c f _ ho hi] at hr; exact hr.symm
      | true => exact absurd ⟨hi, hr⟩ hc

/-- **C126**, epoll: the OS reports an error for the socket (`EPOLLERR` comes with every failed connect); the failure is announced and nothing else, the fd is closed. -/
theorem C126_epoll_partial (c : Cfg) (f : BFd) (ev : Rev) (w : WOut) (rs : List RRes) (he : ev.err = true) (hr : f.r.reg = true) (ho : f.r.isOpen = true) :
    (dispatch .epoll c f ev w rs).seen = f.seen ++ [.cb (.error (-20000))] ∧ (dispatch .epoll c f ev w rs).r.reg = false := by
  obtain ⟨h1, h2⟩ := eac_spec c f.r IOFD_ERROR ho
  simp only [dispatch, hr, he, not_true_eq_false, if_false, and_self, if_true]
  refine ⟨?_, h2⟩
  simp only [BFd.take, h1]
  simp [IOFD_ERROR]

example : ∃ f : BFd, (connect (listenCfg idle idle) (List.replicate 32 0) .inProgress .blocked) = (f, 0) ∧ f.r.reg = true ∧ f.r.isOpen = true := ⟨_, rfl, rfl, rfl⟩

/-- **C126** fails with poll and select: whenever a connect in progress fails (the socket becomes writable and readable, with an error that the dispatch does not look at) and nothing was written meanwhile, the
user is first told that the connection is ready for writing, and only then, when reading fails, that there is an error. -/
theorem C126_poll_announces_success (chk : Option (List Byte → Int)) (size : Nat) (mem : List Byte) (ev : Rev) (ho : ev.out = true) (hi : ev.inn = true) (e : Nat) (rs : List RRes) :
    (dispatch .poll ⟨chk, size, idle, idle⟩ (connect ⟨chk, size, idle, idle⟩ mem .inProgress .blocked).1 ev (.drained .keep) (.fail e :: rs)).seen =
      [.ready, .cb (.error (-(e : Int)))] := by
  have h1 : inner ⟨chk, size, idle, idle⟩ ((init mem).t - (init mem).d + 1) (init mem) = (init mem, .brk) := by
    cases chk <;> simp [init, inner, checkPkt, advance, setRet0]
  have h2 : ∀ g : RFd, call ⟨chk, size, idle, idle⟩ g (.error (-(e : Int))) = { g with log := g.log ++ [.error (-(e : Int))] } := by
    intro g; simp [call, idle]
  have h3 : readData ⟨chk, size, idle, idle⟩ (init mem) (.fail e :: rs) =
      (eventAndClose ⟨chk, size, idle, idle⟩ (request ⟨chk, size, idle, idle⟩ (move ⟨chk, size, idle, idle⟩ (init mem))) (-(e : Int)), .ret (-(e : Int))) := by
    rw [readData, h1]; simp [lowRead]
  have h4 : (request ⟨chk, size, idle, idle⟩ (move ⟨chk, size, idle, idle⟩ (init mem))).log = [] ∧
      (request ⟨chk, size, idle, idle⟩ (move ⟨chk, size, idle, idle⟩ (init mem))).isOpen = true := by
    simp only [request, (move_eq _ _).1, (move_eq _ _).2.1]; exact ⟨rfl, rfl⟩
  have h5 : (eventAndClose ⟨chk, size, idle, idle⟩ (request ⟨chk, size, idle, idle⟩ (move ⟨chk, size, idle, idle⟩ (init mem))) (-(e : Int))).log = [.error (-(e : Int))] := by
    simp only [eventAndClose, h4.2, if_true, h2]
    split <;> simp [h4.1]
  simp only [connect, dispatch, ho, hi, writePart, readPart, if_true, h3]
  have hreg : (init mem).reg = true := rfl
  simp only [hreg, not_true_eq_false, if_false, Bool.false_eq_true, BFd.take, h5]
  simp [init]

/-- **C126**: an immediate failure is returned, and no callback runs. -/
theorem C126_immediate (c : Cfg) (mem : List Byte) (w : WOut) (m : Mode) (ss : List (Option Step)) :
    (connect c mem .failed w).2 = -2000 ∧ (run m c (connect c mem .failed w).1 ss).seen = [] := by
  refine ⟨rfl, ?_⟩
  have : ∀ ss (f : BFd), f.r.reg = false → run m c f ss = f := by
    intro ss
    induction ss with
    | nil => intro f _; rfl
    | cons s ss ih =>
      intro f h
      cases s with
      | none => simp only [run, h]; exact ih _ h
      | some s => simp only [run, dispatch, h]; exact ih _ h
  rw [this ss _ rfl]
  rfl

/-! ## C122 for whole events -/

/-- No error was announced. -/
def NoErrS (l : List Seen) : Prop := ∀ e, Seen.cb (.error e) ∉ l

/-- The fd is either without an error so far, or gone with exactly one, the last thing seen. -/
structure FineB (f : BFd) : Prop where
  reg : f.r.reg = true → f.r.isOpen = true
  err : NoErrS f.seen ∧ NoErr f.r.log ∨ f.r.reg = false ∧ ∃ l e, f.seen = l ++ [.cb (.error e)] ∧ NoErrS l

theorem drop_len {α : Type} (a b : List α) : (a ++ b).drop a.length = b := by simp

/-- What a step of the read side that appends `l` to the log adds. -/
theorem take_seen (f : BFd) (g : RFd) (l : List Cb) (h : g.log = f.r.log ++ l) : (f.take g).seen = f.seen ++ l.map .cb := by
  simp [BFd.take, h]

theorem noErrS_app {a : List Seen} {l : List Cb} (ha : NoErrS a) (hl : NoErr l) : NoErrS (a ++ l.map .cb) := by
  intro e h
  rcases List.mem_append.1 h with h | h
  · exact ha e h
  · obtain ⟨x, hx, hxe⟩ := List.mem_map.1 h
    cases hxe
    exact hl e hx

theorem eventAndClose_prefix (c : Cfg) (f : RFd) (e : Int) : f.log <+: (eventAndClose c f e).log := by
  unfold eventAndClose; split
  · simp only; split <;> simp [call_log]
  · exact List.prefix_refl _

theorem inner_prefix (c : Cfg) : ∀ (fuel : Nat) (f : RFd), f.log <+: (inner c fuel f).1.log := by
  intro fuel
  induction fuel with
  | zero => intro f; exact List.prefix_refl _
  | succ fuel ih =>
    intro f
    have hck : f.log <+: (checkPkt c f).1.log := by
      unfold checkPkt; split
      · split
        · simp [call_log]
        · exact List.prefix_refl _
      · exact List.prefix_refl _
    have h2 : (checkPkt c f).1.log <+: (if 0 < (checkPkt c f).2.toNat ∨ (checkPkt c f).1.ret0 = true then
        call c (checkPkt c f).1 (.data ((window (checkPkt c f).1).take (checkPkt c f).2.toNat)) else (checkPkt c f).1).log := by
      split
      · simp [call_log]
      · exact List.prefix_refl _
    have h2 := hck.trans h2
    rw [inner]
    simp only
    generalize (if 0 < (checkPkt c f).2.toNat ∨ (checkPkt c f).1.ret0 = true then
        call c (checkPkt c f).1 (.data ((window (checkPkt c f).1).take (checkPkt c f).2.toNat)) else (checkPkt c f).1) = f2 at h2 ⊢
    split
    · exact hck
    · split
      · exact hck.trans (eventAndClose_prefix ..)
      · split
        · exact h2
        · split
          · split <;> exact h2
          · split
            · exact h2
            · exact h2.trans (ih (advance f2 _))

theorem readData_prefix (c : Cfg) (rs : List RRes) : ∀ f, f.log <+: (readData c f rs).1.log := by
  induction rs with
  | nil =>
    intro f
    have hi := inner_prefix c (f.t - f.d + 1) f
    rw [readData]
    split
    · exact hi
    · simp only [request, (move_eq c _).2.1]; exact hi
  | cons r rs ih =>
    intro f
    have hi := inner_prefix c (f.t - f.d + 1) f
    rw [readData]
    split
    · exact hi
    · have hg : f.log <+: (request c (move c (inner c (f.t - f.d + 1) f).1)).log := by
        simp only [request, (move_eq c _).2.1]; exact hi
      simp only
      split
      · exact hg
      · exact hg.trans (eventAndClose_prefix ..)
      · split
        · exact hg.trans (ih (setRet0 (request c (move c (inner c (f.t - f.d + 1) f).1)) true))
        · exact hg.trans (by have := ih (store (request c (move c (inner c (f.t - f.d + 1) f).1)) ‹_›); rwa [(store_eq _ _).2] at this)

/-- Reading from an fd that is closed already announces no error and leaves it closed. -/
theorem call_isOpen_false (c : Cfg) (f : RFd) (cb : Cb) (h : f.isOpen = false) : (call c f cb).isOpen = false := by
  unfold call; simp only; split
  · rfl
  · split <;> exact h

theorem inner_closed (c : Cfg) : ∀ (fuel : Nat) (f : RFd), f.isOpen = false → NoErr f.log →
    (inner c fuel f).1.isOpen = false ∧ NoErr (inner c fuel f).1.log := by
  intro fuel
  induction fuel with
  | zero => intro f h hn; exact ⟨h, hn⟩
  | succ fuel ih =>
    intro f h hn
    have h1 : (checkPkt c f).1.isOpen = false := by
      unfold checkPkt; split
      · split
        · exact call_isOpen_false c f _ h
        · exact h
      · exact h
    have hn1 := checkPkt_noErr c f hn
    have h2 : (if 0 < (checkPkt c f).2.toNat ∨ (checkPkt c f).1.ret0 = true then
        call c (checkPkt c f).1 (.data ((window (checkPkt c f).1).take (checkPkt c f).2.toNat)) else (checkPkt c f).1).isOpen = false ∧
        NoErr (if 0 < (checkPkt c f).2.toNat ∨ (checkPkt c f).1.ret0 = true then
        call c (checkPkt c f).1 (.data ((window (checkPkt c f).1).take (checkPkt c f).2.toNat)) else (checkPkt c f).1).log := by
      split
      · exact ⟨call_isOpen_false c _ _ h1, by rw [call_log]; exact noErr_snoc hn1 (by simp)⟩
      · exact ⟨h1, hn1⟩
    rw [inner]
    simp only
    generalize (if 0 < (checkPkt c f).2.toNat ∨ (checkPkt c f).1.ret0 = true then
        call c (checkPkt c f).1 (.data ((window (checkPkt c f).1).take (checkPkt c f).2.toNat)) else (checkPkt c f).1) = f2 at h2 ⊢
    split
    · exact ⟨h1, hn1⟩
    · split
      · simp only [eventAndClose, h1]; exact ⟨h1, hn1⟩
      · split
        · exact h2
        · split
          · split <;> exact h2
          · split
            · exact h2
            · exact ih (advance f2 _) h2.1 h2.2

theorem readData_closed (c : Cfg) (rs : List RRes) : ∀ f, f.isOpen = false → NoErr f.log → (readData c f rs).1.isOpen = false ∧ NoErr (readData c f rs).1.log := by
  induction rs with
  | nil =>
    intro f h hn
    have hi := inner_closed c (f.t - f.d + 1) f h hn
    rw [readData]; split
    · exact hi
    · simp only [request, (move_eq c _).1, (move_eq c _).2.1]; exact hi
  | cons r rs ih =>
    intro f h hn
    have hi := inner_closed c (f.t - f.d + 1) f h hn
    rw [readData]; split
    · exact hi
    · have hg : (request c (move c (inner c (f.t - f.d + 1) f).1)).isOpen = false ∧ NoErr (request c (move c (inner c (f.t - f.d + 1) f).1)).log := by
        simp only [request, (move_eq c _).1, (move_eq c _).2.1]; exact hi
      simp only
      split
      · exact hg
      · simp [eventAndClose, hg.1]; exact hg.2
      · split
        · exact ih (setRet0 _ true) hg.1 hg.2
        · exact ih (store _ _) (by rw [(store_eq _ _).1]; exact hg.1) (by rw [(store_eq _ _).2]; exact hg.2)

/-- If the inner loop returns 0 it has announced no error. -/
theorem inner_ret0 (c : Cfg) : ∀ (fuel : Nat) (f : RFd), NoErr f.log → (inner c fuel f).2 = .ret 0 → NoErr (inner c fuel f).1.log := by
  intro fuel
  induction fuel with
  | zero => intro f _ h; simp [inner] at h
  | succ fuel ih =>
    intro f hn h
    have hn1 := checkPkt_noErr c f hn
    have hn2 : NoErr (if 0 < (checkPkt c f).2.toNat ∨ (checkPkt c f).1.ret0 = true then
        call c (checkPkt c f).1 (.data ((window (checkPkt c f).1).take (checkPkt c f).2.toNat)) else (checkPkt c f).1).log := by
      split
      · rw [call_log]; exact noErr_snoc hn1 (by simp)
      · exact hn1
    rw [inner] at h ⊢
    simp only at h ⊢
    generalize (if 0 < (checkPkt c f).2.toNat ∨ (checkPkt c f).1.ret0 = true then
        call c (checkPkt c f).1 (.data ((window (checkPkt c f).1).take (checkPkt c f).2.toNat)) else (checkPkt c f).1) = f2 at h hn2 ⊢
    split at h
    · rename_i h1; rw [if_pos h1]; exact hn1
    · rename_i h1
      rw [if_neg h1]
      split at h
      · rename_i h2
        exfalso
        simp only [IExit.ret.injEq] at h
        split at h
        · simp [eINVAL] at h
        · rcases h2 with h2 | h2 <;> omega
      · rename_i h2
        rw [if_neg h2]
        split at h
        · rename_i h3; rw [if_pos h3]; exact hn2
        · rename_i h3
          rw [if_neg h3]
          split at h
          · rename_i h4
            rw [if_pos h4]
            split <;> exact hn2
          · rename_i h4
            rw [if_neg h4]
            split at h
            · simp at h
            · rename_i h5
              rw [if_neg h5]
              exact ih (advance f2 _) hn2 h

/-- Error numbers are not 0. -/
def RealErrs (rs : List RRes) : Prop := ∀ r ∈ rs, r ≠ .fail 0

theorem readData_ret0 (c : Cfg) (rs : List RRes) : RealErrs rs → ∀ f, f.isOpen = true → NoErr f.log → (readData c f rs).2 = .ret 0 → NoErr (readData c f rs).1.log := by
  induction rs with
  | nil =>
    intro _ f ho hn h
    rw [readData] at h ⊢
    cases hx : (inner c (f.t - f.d + 1) f).2 with
    | ret e => simp only [hx] at h ⊢; cases h; exact inner_ret0 c _ f hn hx
    | brk => simp [hx] at h
  | cons r rs ih =>
    intro hre f ho hn h
    rw [readData] at h ⊢
    cases hx : (inner c (f.t - f.d + 1) f).2 with
    | ret e => simp only [hx] at h ⊢; cases h; exact inner_ret0 c _ f hn hx
    | brk =>
      simp only [hx] at h ⊢
      have h1 := (inner_err c (f.t - f.d + 1) f ho hn).1 hx
      have hgo : (request c (move c (inner c (f.t - f.d + 1) f).1)).isOpen = true := by
        simp only [request, (move_eq c _).1]; exact h1.1
      have hgn : NoErr (request c (move c (inner c (f.t - f.d + 1) f).1)).log := by
        simp only [request, (move_eq c _).2.1]; exact h1.2
      generalize request c (move c (inner c (f.t - f.d + 1) f).1) = g at hgo hgn h ⊢
      cases r with
      | fail e =>
        exfalso
        simp only [lowRead, Exit.ret.injEq] at h
        exact hre (.fail e) (by simp) (by congr; omega)
      | again => simp [lowRead] at h
      | eof =>
        simp only [lowRead, if_true] at h ⊢
        exact ih (fun x hx => hre x (by simp [hx])) (setRet0 g true) hgo hgn h
      | dgram bs =>
        simp only [lowRead] at h ⊢
        split at h
        · rename_i hb; rw [if_pos hb]; exact ih (fun x hx => hre x (by simp [hx])) (setRet0 g true) hgo hgn h
        · rename_i hb; rw [if_neg hb]
          exact ih (fun x hx => hre x (by simp [hx])) (store g _) (by rw [(store_eq _ _).1]; exact hgo) (by rw [(store_eq _ _).2]; exact hgn) h
      | stream bs k =>
        have hnf : ∀ e, lowRead (.stream bs k) (c.buff - g.t) ≠ .fail e := by
          intro e; simp only [lowRead]; split
          · simp
          · split <;> simp
        generalize lowRead (.stream bs k) (c.buff - g.t) = x at h hnf ⊢
        cases x with
        | again => simp at h
        | fail e => exact absurd rfl (hnf e)
        | bytes b =>
          simp only at h ⊢
          split at h
          · rename_i hb; rw [if_pos hb]; exact ih (fun x hx => hre x (by simp [hx])) (setRet0 g true) hgo hgn h
          · rename_i hb; rw [if_neg hb]
            exact ih (fun x hx => hre x (by simp [hx])) (store g _) (by rw [(store_eq _ _).1]; exact hgo) (by rw [(store_eq _ _).2]; exact hgn) h

/-- `__iofd_read_data` returns 0 or a negative value. -/
theorem inner_nonpos (c : Cfg) : ∀ (fuel : Nat) (f : RFd) (e : Int), (inner c fuel f).2 = .ret e → e ≤ 0 := by
  intro fuel
  induction fuel with
  | zero => intro f e h; simp [inner] at h
  | succ fuel ih =>
    intro f e h
    rw [inner] at h
    simp only at h
    generalize (if 0 < (checkPkt c f).2.toNat ∨ (checkPkt c f).1.ret0 = true then
        call c (checkPkt c f).1 (.data ((window (checkPkt c f).1).take (checkPkt c f).2.toNat)) else (checkPkt c f).1) = f2 at h
    split at h
    · cases h; omega
    · split at h
      · simp only [IExit.ret.injEq] at h
        split at h
        · simp only [eINVAL] at h; omega
        · omega
      · split at h
        · cases h; omega
        · split at h
          · split at h
            · cases h; omega
            · simp at h
          · split at h
            · simp at h
            · exact ih _ _ h

theorem readData_nonpos (c : Cfg) (rs : List RRes) : ∀ (f : RFd) (e : Int), (readData c f rs).2 = .ret e → e ≤ 0 := by
  induction rs with
  | nil =>
    intro f e h
    rw [readData] at h
    cases hx : (inner c (f.t - f.d + 1) f).2 with
    | ret e' => simp only [hx] at h; cases h; exact inner_nonpos c _ f _ hx
    | brk => simp [hx] at h
  | cons r rs ih =>
    intro f e h
    rw [readData] at h
    cases hx : (inner c (f.t - f.d + 1) f).2 with
    | ret e' => simp only [hx] at h; cases h; exact inner_nonpos c _ f _ hx
    | brk =>
      simp only [hx] at h
      split at h
      · simp at h
      · cases h; omega
      · split at h
        · exact ih _ _ h
        · exact ih _ _ h

/-- What reading adds when it announces an error as the last thing. -/
theorem last_split {a log : List Cb} {e : Int} (hp : a <+: log) (ha : NoErr a) (hl : LastErr log e) : ∃ x, log = a ++ (x ++ [.error e]) ∧ NoErr x := by
  obtain ⟨l, rfl, hn⟩ := hl
  rcases List.prefix_concat_iff.1 hp with h | h
  · subst h; exact absurd (List.mem_append_right _ (List.mem_singleton_self _)) (ha e)
  · obtain ⟨y, rfl⟩ := h
    exact ⟨y, by simp, fun e' he' => hn e' (List.mem_append_right _ he')⟩

theorem prefix_noErr {a log : List Cb} (hp : a <+: log) (hn : NoErr log) : ∃ x, log = a ++ x ∧ NoErr x := by
  obtain ⟨y, rfl⟩ := hp
  exact ⟨y, rfl, fun e he => hn e (List.mem_append_right _ he)⟩

/-- The state between the parts of a dispatch as long as no error was announced. -/
structure Clean (f : BFd) : Prop where
  reg : f.r.reg = true → f.r.isOpen = true
  seen : NoErrS f.seen
  log : NoErr f.r.log

theorem clean_fine {f : BFd} (h : Clean f) : FineB f := ⟨h.reg, .inl ⟨h.seen, h.log⟩⟩

theorem eac_clean (c : Cfg) (f : BFd) (e : Int) (h : Clean f) : FineB (f.take (eventAndClose c f.r e)) := by
  by_cases ho : f.r.isOpen = true
  · obtain ⟨h1, h2⟩ := eac_spec c f.r e ho
    refine ⟨fun hr => ?_, .inr ⟨h2, f.seen, e, by rw [take_seen f _ [.error e] h1]; rfl, h.seen⟩⟩
    rw [show (f.take (eventAndClose c f.r e)).r = eventAndClose c f.r e from rfl, h2] at hr; cases hr
  · have h1 : eventAndClose c f.r e = f.r := by unfold eventAndClose; rw [if_neg ho]
    have ht : f.take f.r = f := by simp [BFd.take]
    rw [h1, ht]; exact clean_fine h

theorem readData_unreg (c : Cfg) (rs : List RRes) : ∀ f, f.reg = false → (readData c f rs).1.reg = false := by
  induction rs with
  | nil =>
    intro f h
    have hi := inner_unreg c (f.t - f.d + 1) f h
    rw [readData]; split
    · exact hi
    · simp only [request, (move_eq c _).2.2]; exact hi
  | cons r rs ih =>
    intro f h
    have hi := inner_unreg c (f.t - f.d + 1) f h
    rw [readData]; split
    · exact hi
    · have hg : (request c (move c (inner c (f.t - f.d + 1) f).1)).reg = false := by simp only [request, (move_eq c _).2.2]; exact hi
      generalize request c (move c (inner c (f.t - f.d + 1) f).1) = g at hg ⊢
      simp only
      split
      · exact hg
      · exact eac_stays_unreg c g _ hg
      · split
        · exact ih (setRet0 g true) hg
        · refine ih (store g _) ?_
          unfold store; split <;> exact hg

theorem readData_reg (c : Cfg) (f : RFd) (rs : List RRes) (h : f.reg = true → f.isOpen = true) : (readData c f rs).1.reg = true → (readData c f rs).1.isOpen = true := by
  cases hr : f.reg with
  | true =>
    have := run_star c [.readable rs] f h
    have := Star.preserves (P := fun f => f.reg = true → f.isOpen = true) (small_reg c) this h
    simpa [IoRead.run, step, hr] using this
  | false =>
    intro hx
    exact absurd hx (by rw [readData_unreg c rs f hr]; simp)

theorem writePart_clean (c : Cfg) (f : BFd) (w : WOut) (h : Clean f) :
    ((writePart c f w).2 = false → Clean (writePart c f w).1) ∧ FineB (writePart c f w).1 := by
  have hr : ∀ g : RFd, g.log = f.r.log → (g.reg = true → g.isOpen = true) → Clean ⟨g, f.seen ++ [.ready]⟩ := by
    intro g hg hreg
    refine ⟨hreg, ?_, by simpa [hg] using h.log⟩
    intro e he
    rcases List.mem_append.1 he with he | he
    · exact h.seen e he
    · cases List.mem_singleton.1 he
  cases w with
  | drained a =>
    have : Clean (writePart c f (.drained a)).1 := by
      cases a with
      | keep => exact hr f.r rfl h.reg
      | close =>
        simp only [writePart]
        split
        · exact hr _ rfl (by simp)
        · exact hr f.r rfl h.reg
      | del => exact hr _ rfl (by simp)
    exact ⟨fun _ => this, clean_fine this⟩
  | blocked => exact ⟨fun _ => h, clean_fine h⟩
  | failed e => exact ⟨by simp [writePart], eac_clean c f _ h⟩

theorem readPart_clean (c : Cfg) (f : BFd) (rs : List RRes) (hre : RealErrs rs) (h : Clean f) :
    ((readPart c f rs).2 = false → Clean (readPart c f rs).1) ∧ FineB (readPart c f rs).1 := by
  have hreg := readData_reg c f.r rs h.reg
  have hpre := readData_prefix c rs f.r
  have hclean : NoErr (readData c f.r rs).1.log → Clean (readPart c f rs).1 := by
    intro hn
    obtain ⟨x, hx, hxn⟩ := prefix_noErr hpre hn
    refine ⟨hreg, ?_, hn⟩
    show NoErrS (f.take (readData c f.r rs).1).seen
    rw [take_seen f _ x hx]
    exact noErrS_app h.seen hxn
  by_cases ho : f.r.isOpen = true
  · obtain ⟨h1, h2⟩ := readData_spec c rs f.r ho h.log
    cases hx : (readData c f.r rs).2 with
    | blocked => exact ⟨fun _ => hclean (h1 hx), clean_fine (hclean (h1 hx))⟩
    | ret e =>
      rcases h2 e hx with ⟨_, hn⟩ | ⟨hl, hr⟩
      · exact ⟨fun _ => hclean hn, clean_fine (hclean hn)⟩
      · obtain ⟨x, hxl, hxn⟩ := last_split hpre h.log hl
        refine ⟨fun hf => ?_, ⟨hreg, .inr ⟨hr, f.seen ++ x.map .cb, e, ?_, noErrS_app h.seen hxn⟩⟩⟩
        · refine hclean ?_
          have he : ¬ e < 0 := by simpa [readPart, hx] using hf
          have := readData_nonpos c rs f.r e hx
          have : e = 0 := by omega
          subst this
          exact readData_ret0 c rs hre f.r ho h.log hx
        · show (f.take (readData c f.r rs).1).seen = _
          rw [take_seen f _ _ hxl]; simp
  · have hc := readData_closed c rs f.r (by simpa using ho) h.log
    exact ⟨fun _ => hclean hc.2, clean_fine (hclean hc.2)⟩

theorem dispatch_fine (m : Mode) (c : Cfg) (f : BFd) (ev : Rev) (w : WOut) (rs : List RRes) (hre : RealErrs rs) (h : FineB f) : FineB (dispatch m c f ev w rs) := by
  unfold dispatch
  split
  · exact h
  · rename_i hreg
    have hreg : f.r.reg = true := by simpa using hreg
    have hcl : Clean f := by
      rcases h.err with ⟨h1, h2⟩ | ⟨h1, _⟩
      · exact ⟨h.reg, h1, h2⟩
      · rw [h1] at hreg; cases hreg
    split
    · exact eac_clean c f _ hcl
    · have ha : ((if ev.out then writePart c f w else (f, false)).2 = false → Clean (if ev.out then writePart c f w else (f, false)).1) ∧
          FineB (if ev.out then writePart c f w else (f, false)).1 := by
        split
        · exact writePart_clean c f w hcl
        · exact ⟨fun _ => hcl, h⟩
      simp only
      generalize (if ev.out then writePart c f w else (f, false)) = a at ha ⊢
      split
      · exact ha.2
      · rename_i ha2
        have hca := ha.1 (by simpa using ha2)
        have hb : ((if ev.inn then readPart c a.1 rs else (a.1, false)).2 = false → Clean (if ev.inn then readPart c a.1 rs else (a.1, false)).1) ∧
            FineB (if ev.inn then readPart c a.1 rs else (a.1, false)).1 := by
          split
          · exact readPart_clean c a.1 rs hre hca
          · exact ⟨fun _ => hca, clean_fine hca⟩
        generalize (if ev.inn then readPart c a.1 rs else (a.1, false)) = b at hb ⊢
        split
        · exact hb.2
        · rename_i hb2
          split
          · exact eac_clean c b.1 _ (hb.1 (by simpa using hb2))
          · exact hb.2

theorem run_fineB (m : Mode) (c : Cfg) (ss : List (Option Step)) (hre : ∀ s ∈ ss, ∀ x, s = some x → RealErrs x.rs) : ∀ f, FineB f → FineB (run m c f ss) := by
  induction ss with
  | nil => intro f h; exact h
  | cons s ss ih =>
    intro f h
    have hre' : ∀ s ∈ ss, ∀ x, s = some x → RealErrs x.rs := fun s hs => hre s (by simp [hs])
    cases s with
    | some x => exact ih hre' _ (dispatch_fine m c f x.ev x.w x.rs (hre _ (by simp) x rfl) h)
    | none =>
      refine ih hre' _ ?_
      split
      · rename_i hr
        rcases h.err with h1 | ⟨h1, _⟩
        · exact ⟨by simp, .inl h1⟩
        · rw [h1] at hr; cases hr
      · exact h

/-- **C122** for whole events — writing, reading, error and hang-up conditions reported together, callbacks that close or unregister the fd, epoll or poll: whatever the history, an
error (or hang-up) is announced at most once, it is the last callback ever, and the fd is then not registered any more. -/
theorem C122_whole_events (m : Mode) (c : Cfg) (mem : List Byte) (ss : List (Option Step)) (hre : ∀ s ∈ ss, ∀ x, s = some x → RealErrs x.rs) (i : Nat) (e : Int)
    (h : (run m c ⟨init mem, []⟩ ss).seen[i]? = some (.cb (.error e))) :
    i + 1 = (run m c ⟨init mem, []⟩ ss).seen.length ∧ (run m c ⟨init mem, []⟩ ss).r.reg = false := by
  have h0 : FineB ⟨init mem, []⟩ := ⟨fun _ => rfl, .inl ⟨by intro e h; simp at h, by intro e h; simp [init] at h⟩⟩
  rcases (run_fineB m c ss hre _ h0).err with ⟨hn, _⟩ | ⟨hr, l, e', hl, hn⟩
  · exact absurd (List.mem_of_getElem? h) (hn e)
  · refine ⟨?_, hr⟩
    rw [hl] at h ⊢
    rw [List.length_append, List.length_singleton]
    rw [List.getElem?_append] at h
    split at h
    · exact absurd (List.mem_of_getElem? h) (hn e)
    · rename_i hlt
      rw [List.getElem?_singleton] at h
      split at h
      · omega
      · simp at h

/-- A concrete history meeting the hypotheses: data, then a hang-up together with the last data. -/
example : (run .epoll (listenCfg idle idle) ⟨init (List.replicate 32 0), []⟩
    [some ⟨⟨false, true, true, false⟩, .drained .keep, [.dgram [1], .again]⟩, some ⟨⟨false, false, true, true⟩, .blocked, [.dgram [2], .again]⟩,
     some ⟨⟨false, true, true, false⟩, .drained .keep, [.dgram [3]]⟩]).seen =
    [.ready, .cb (.data [1]), .cb (.data [2]), .cb (.error 2)] := by decide +kernel

/-! ## C127: after aosl_close -/

/-- A stream whose packet is not complete yet. -/
def partCfg : Cfg := ⟨some (fun _ => 0), 1024, idle, idle⟩

/-- **C127** fails: the callback that is told "ready for writing" closes the fd; the same event says that there is something to read: the packet check is called for
the closed fd (whose context the user may have freed by now) with the bytes buffered from before. -/
theorem C127_check_after_close (m : Mode) : ∃ f : BFd,
    f = run m partCfg ⟨init (List.replicate 2048 0), []⟩ [some ⟨⟨false, false, true, false⟩, .blocked, [.stream [7] 9]⟩, some ⟨⟨false, true, true, false⟩, .drained .close, []⟩] ∧
    f.seen = [.cb (.chk [7]), .ready, .cb (.chk [7])] ∧ f.r.isOpen = false :=
  ⟨_, rfl, by cases m <;> decide +kernel, by cases m <;> decide +kernel⟩

/-- **C127** fails also without buffered data: the user's read function is called for the closed fd (with the invalid fd number), and what it returns is delivered. -/
theorem C127_read_after_close (m : Mode) : ∃ f : BFd,
    f = run m (listenCfg idle idle) ⟨init (List.replicate 32 0), []⟩ [some ⟨⟨false, true, true, false⟩, .drained .close, [.dgram [7]]⟩] ∧
    f.seen = [.ready, .cb (.data [7])] ∧ f.r.isOpen = false ∧ f.r.reqs.length = 1 :=
  ⟨_, rfl, by cases m <;> decide +kernel, by cases m <;> decide +kernel, by cases m <;> decide +kernel⟩

/-- A fd that is not registered any more sees nothing, whatever is reported for it. -/
theorem unreg_run (m : Mode) (c : Cfg) (ss : List (Option Step)) : ∀ f : BFd, f.r.reg = false → run m c f ss = f := by
  induction ss with
  | nil => intro f _; rfl
  | cons s ss ih =>
    intro f h
    cases s with
    | none => simp only [run, h]; exact ih _ h
    | some s => simp only [run, dispatch, h]; exact ih _ h

/-- **C127**, what holds: after a close from outside a callback nothing runs any more; and after a close in the "ready for writing" callback nothing if the event was not also one for reading.
(For a close in a data or check callback: `Verif.IoRead.C122_close_in_callback`.) -/
theorem C127_partial (m : Mode) (c : Cfg) (f : BFd) (ss : List (Option Step)) :
    (run m c f (none :: ss)).seen = f.seen ∧
    ∀ ev rs, f.r.reg = true → ev.err = false → ev.out = true → ev.inn = false →
      (run m c f (some ⟨ev, .drained .close, rs⟩ :: ss)).seen = f.seen ++ [.ready] := by
  constructor
  · simp only [run]
    rw [unreg_run m c ss _ (by simp only; split <;> simp_all)]
  · intro ev rs hr he ho hi
    have h1 : dispatch m c f ev (.drained .close) rs = ⟨{ f.r with isOpen := false, reg := false }, f.seen ++ [.ready]⟩ := by
      simp only [dispatch, hr, he, ho, hi, writePart]
      simp only [not_true_eq_false, if_false, Bool.false_eq_true, and_false, if_true]
      split
      · simp [BFd.take, eventAndClose]
      · rfl
    simp only [run, h1]
    rw [unreg_run m c ss _ rfl]

/-- A hang-up reported with the "ready" does not matter. -/
example : (run .epoll partCfg ⟨init (List.replicate 2048 0), []⟩ [some ⟨⟨false, true, false, true⟩, .drained .close, []⟩]).seen = [.ready] := by decide +kernel

open Verif.IoRead

/-! ## C144: everything one event says is served -/

/-- **C144**: an event that reports several things at once (and no error) is served completely and in order: "ready for writing" (unless the output is still blocked, which holds back nothing else),
then the data, all that the fd has until it would block, then the hang-up (epoll), announced once, which closes the fd. -/
theorem C144_served (m : Mode) (c : Cfg) (f : BFd) (ev : Rev) (rs : List RRes) (drained : Bool) (hr : f.r.reg = true) (he : ev.err = false) (g : RFd)
    (hg : (readData c f.r rs) = (g, .blocked)) (ho : g.isOpen = true) (hfo : f.r.isOpen = true) :
    let after := if ev.inn then g else f.r
    let d := dispatch m c f ev (if drained then .drained .keep else .blocked) rs
    d.seen = f.seen ++ (if ev.out = true ∧ drained = true then [.ready] else []) ++ (after.log.drop f.r.log.length).map .cb ++
      (if m = .epoll ∧ ev.hup = true then [.cb (.error 2)] else []) ∧
    (m = .epoll ∧ ev.hup = true → d.r.reg = false) ∧ (¬ (m = .epoll ∧ ev.hup = true) → d.r = after) := by
  obtain ⟨h1, h2⟩ := eac_spec c g 2 ho
  obtain ⟨h3, h4⟩ := eac_spec c f.r 2 hfo
  have hh : IOFD_HUP = 2 := rfl
  obtain ⟨err, out, inn, hup⟩ := ev
  simp only at he
  subst he
  cases out <;> cases inn <;> cases drained <;> by_cases hm : m = .epoll ∧ hup = true <;>
    simp [dispatch, hr, writePart, readPart, hg, hm, BFd.take, h1, h2, h3, h4, hh]

/-- The hypotheses are met: one packet arrives together with the peer's hang-up, while the output is empty. -/
example : (readData (listenCfg idle idle) (init (List.replicate 32 0)) [.dgram [7]]).2 = .blocked ∧
    (readData (listenCfg idle idle) (init (List.replicate 32 0)) [.dgram [7]]).1.isOpen = true ∧
    (readData (listenCfg idle idle) (init (List.replicate 32 0)) [.dgram [7]]).1.log = [.data [7]] := by decide +kernel

/-- What the caller of aosl_mpq_connect is told: 0 if the connection is there or on its way, and only a connection that is there is announced. -/
theorem C126_results (c : Cfg) (mem : List Byte) (a : Act) (w : WOut) :
    (connect c mem .done (.drained a)).2 = 0 ∧ (connect c mem .done (.drained a)).1.seen = [.ready] ∧
    (connect c mem .inProgress w).2 = 0 ∧ (connect c mem .inProgress w).1.seen = [] ∧ (connect c mem .inProgress w).1.r.reg = true ∧
    (connect c mem .failed w).2 < 0 ∧ (connect c mem .failed w).1.r.isOpen = true := by
  refine ⟨rfl, ?_, rfl, rfl, rfl, by simp [connect], rfl⟩
  cases a <;> simp [connect, writePart]

/-- A close from outside the dispatch closes the descriptor. -/
theorem C127_closed (m : Mode) (c : Cfg) (f : BFd) (hr : f.r.reg = true) (ss : List (Option Step)) : (run m c f (none :: ss)).r.isOpen = false := by
  simp only [run]
  rw [unreg_run m c ss _ (by simp [hr])]
  simp [hr]

/-- **C124**: an error of accept is announced with the same code and closes the listening socket as well. -/
theorem C124_error (m : Mode) (f : BFd) (hq : Quiet 32 f.r) :
    (dispatch m (listenCfg idle idle) f ⟨false, false, true, false⟩ .blocked ([Acc.error].map acceptRes)).seen = f.seen ++ [.cb (.error (-2000))] := by
  have := (C124_listen_dies m f hq [] (by simp)).1
  simpa [acceptRes] using this

open Verif.IoRead

/-- **C127**, aosl_mpq_del in the "ready for writing" callback, which unlike a close leaves the descriptor open: nothing else is seen of an event that says nothing more. -/
theorem C127_del (m : Mode) (c : Cfg) (f : BFd) (ev : Rev) (rs : List RRes) (ss : List (Option Step)) (hr : f.r.reg = true) (he : ev.err = false) (ho : ev.out = true)
    (hi : ev.inn = false) (hh : ¬ (m = .epoll ∧ ev.hup = true)) :
    (run m c f (some ⟨ev, .drained .del, rs⟩ :: ss)).seen = f.seen ++ [.ready] ∧ (run m c f (some ⟨ev, .drained .del, rs⟩ :: ss)).r = { f.r with reg := false } := by
  have h1 : dispatch m c f ev (.drained .del) rs = ⟨{ f.r with reg := false }, f.seen ++ [.ready]⟩ := by
    simp [dispatch, hr, he, ho, hi, writePart, hh]
  simp only [run, h1]
  rw [unreg_run m c ss _ rfl]
  exact ⟨rfl, rfl⟩

/-- **C127** fails here too: with epoll a hang-up reported together with "ready for writing" is announced to a fd that the callback has just removed from its queue; the descriptor is not closed. -/
theorem C127_hup_after_del (c : Cfg) (f : BFd) (rs : List RRes) (hr : f.r.reg = true) (ho : f.r.isOpen = true) :
    (dispatch .epoll c f ⟨false, true, false, true⟩ (.drained .del) rs).seen = f.seen ++ [.ready, .cb (.error 2)] ∧
    (dispatch .epoll c f ⟨false, true, false, true⟩ (.drained .del) rs).r.isOpen = true ∧
    (dispatch .epoll c f ⟨false, true, false, true⟩ (.drained .del) rs).r.reg = false := by
  simp [dispatch, hr, writePart, BFd.take, eventAndClose, ho, call, IOFD_HUP]

example : (dispatch .epoll partCfg ⟨init (List.replicate 2048 0), []⟩ ⟨false, true, false, true⟩ (.drained .del) []).seen = [.ready, .cb (.error 2)] := by decide +kernel

end Verif.IoBoth
