import Verif.PortIomp
import Verif.IoBothProps
/-
  C182, C183 and C126 on darwin: waiting for events on the ports.
-/
namespace Verif.PortIomp

open Verif.IoBoth Verif.IoRead

/-! ## C182: how long a wait lasts -/

/-- A negative time-out is for ever, any other lasts as long as asked. -/
def WaitsRight (wait : Int → Wait) : Prop := ∀ ms : Int, (ms < 0 → wait ms = .forever) ∧ (0 ≤ ms → wait ms = .micros (ms.toNat * 1000))

/-- It holds on all ports that use struct timeval. -/
theorem tv_right_partial : WaitsRight tvWait := by
  intro ms
  refine ⟨fun h => by simp [tvWait, h], fun h => ?_⟩
  obtain ⟨n, rfl⟩ := Int.eq_ofNat_of_zero_le h
  have h1 : ¬ ((n : Int) < 0) := by omega
  simp only [tvWait, h1, if_false]
  rw [Int.tdiv_eq_ediv_of_nonneg (by omega), Int.tmod_eq_emod_of_nonneg (by omega)]
  refine congrArg Wait.micros ?_
  simp only [Int.toNat_natCast]
  omega

/-- And with kqueue. -/
theorem kq_right_partial : WaitsRight kqWait := by
  intro ms
  refine ⟨fun h => by simp [kqWait, h], fun h => ?_⟩
  obtain ⟨n, rfl⟩ := Int.eq_ofNat_of_zero_le h
  have h1 : ¬ ((n : Int) < 0) := by omega
  simp only [kqWait, h1, if_false]
  rw [Int.tdiv_eq_ediv_of_nonneg (by omega), Int.tmod_eq_emod_of_nonneg (by omega)]
  refine congrArg Wait.micros ?_
  simp only [Int.toNat_natCast]
  omega

/-- spreadtrum: waiting for ever and not waiting at all are the same call, so one of them is wrong whatever the system makes of it. -/
theorem sprd_zero_or_forever (zero : Wait) (ms : Int) (h : ms < 0) : sprdWait zero ms = sprdWait zero 0 := by
  have : ¬ (0 < ms) := by omega
  simp [sprdWait, sprdUnits, this]

theorem sprd_not_right (zero : Wait) : ¬ WaitsRight (sprdWait zero) := by
  intro h
  have h1 := (h (-1)).1 (by omega)
  have h2 := (h 0).2 (by omega)
  rw [sprd_zero_or_forever zero (-1) (by omega), h2] at h1
  cases h1

/-- spreadtrum: a positive time-out is cut to a multiple of 100 ms, but at least 100 ms: it ends at most 99 ms early and at most 99 ms late. -/
theorem sprd_positive_partial (zero : Wait) (ms : Int) (h : 0 < ms) :
    ∃ u, sprdWait zero ms = .micros (u * 100000) ∧ 1 ≤ u ∧ (100 ≤ ms → (u : Int) * 100 ≤ ms) ∧ ms < (u : Int) * 100 + 100 := by
  obtain ⟨n, rfl⟩ := Int.eq_ofNat_of_zero_le (Int.le_of_lt h)
  by_cases h1 : n < 100
  · refine ⟨1, ?_, by omega, by omega, by omega⟩
    have h2 : (n : Int) / 100 = 0 := by omega
    simp only [sprdWait, sprdUnits, h, if_true]
    rw [Int.tdiv_eq_ediv_of_nonneg (by omega), h2]; rfl
  · have h2 : (n : Int) / 100 ≠ 0 := by omega
    refine ⟨n / 100, ?_, by omega, by omega, by omega⟩
    simp only [sprdWait, sprdUnits, h, if_true]
    rw [Int.tdiv_eq_ediv_of_nonneg (by omega)]
    simp only [h2, if_false]
    congr 1

example : tvWait 1500 = .micros 1500000 ∧ tvWait (-1) = .forever ∧ sprdWait .forever 199 = .micros 100000 ∧ sprdWait (.micros 0) (-1) = .micros 0 := by decide

/-! ## C183: the poller watches what is registered -/

theorem KQ.set_same (k : KQ) (fd : Int) (f : Filt) (v : Option Bool) : k.set fd f v fd f = v := by simp [KQ.set]

theorem KQ.set_other (k : KQ) (fd fd' : Int) (f f' : Filt) (v : Option Bool) (h : fd' ≠ fd ∨ f' ≠ f) : k.set fd f v fd' f' = k fd' f' := by
  simp only [KQ.set]; rw [if_neg]; rintro ⟨rfl, rfl⟩; simp at h

/-- What is asked for of one filter. -/
def asked (w : Want) : Filt → Option Bool
  | .read => if w.inn then some w.et else none
  | .write => if w.out then some w.et else none

/-- A successful add of an fd that is not watched: exactly what was asked is watched; no other fd is touched. -/
theorem add_exact (can : Int → Filt → Bool) (k : KQ) (fd : Int) (w : Want) (hk : ∀ f, k fd f = none) (h : (ctl can k (.add fd w)).2 = true) :
    (∀ f, (ctl can k (.add fd w)).1 fd f = asked w f) ∧ (∀ fd' f, fd' ≠ fd → (ctl can k (.add fd w)).1 fd' f = k fd' f) := by
  rcases w with ⟨i, o, e⟩
  have h1 := hk .read
  have h2 := hk .write
  refine ⟨?_, ?_⟩
  · intro f
    cases i <;> cases o <;> cases hr : can fd .read <;> cases hw : can fd .write <;> cases f <;> simp_all [ctl, adds, kevent, KQ.set, asked]
  · intro fd' f hne
    cases i <;> cases o <;> cases hr : can fd .read <;> cases hw : can fd .write <;> simp [ctl, adds, kevent, KQ.set, hr, hw, hne]

/-- After a delete nothing of the fd is watched, exactly if reading was watched or writing was not. -/
theorem del_clean_iff (can : Int → Filt → Bool) (k : KQ) (fd : Int) :
    (∀ f, (ctl can k (.del fd)).1 fd f = none) ↔ ((k fd .read).isSome ∨ k fd .write = none) := by
  cases hr : k fd .read with
  | none =>
    simp only [ctl, dels, kevent, hr, Option.isSome_none, Bool.false_eq_true, if_false]
    constructor
    · intro h; exact Or.inr (h .write)
    · rintro (h | h)
      · simp at h
      · intro f; cases f <;> assumption
  | some c =>
    simp only [ctl, dels, kevent, hr, Option.isSome_some, if_true]
    simp only [true_or, iff_true]
    intro f
    have h1 : k.set fd .read none fd .write = k fd .write := KQ.set_other _ _ _ _ _ _ (Or.inr (by decide))
    cases hw : k fd .write with
    | none =>
      simp only [h1, hw, Option.isSome_none, Bool.false_eq_true, if_false]
      cases f
      · exact KQ.set_same ..
      · rw [h1, hw]
    | some c' =>
      simp only [h1, hw, Option.isSome_some, if_true]
      cases f
      · rw [KQ.set_other _ _ _ _ _ _ (Or.inr (by decide))]; exact KQ.set_same ..
      · exact KQ.set_same ..

/-- A delete touches no other fd. -/
theorem del_others (can : Int → Filt → Bool) (k : KQ) (fd fd' : Int) (f : Filt) (h : fd' ≠ fd) : (ctl can k (.del fd)).1 fd' f = k fd' f := by
  simp only [ctl, dels, kevent]
  split
  · split <;> simp [KQ.set, h]
  · rfl

/-- An fd registered for writing only stays watched after it was unregistered. -/
theorem writeonly_stays (can : Int → Filt → Bool) (k : KQ) (fd : Int) (et : Bool) (hk : ∀ f, k fd f = none) (hw : can fd .write = true) :
    (ctl can (ctl can k (.add fd ⟨false, true, et⟩)).1 (.del fd)).1 fd .write = some et ∧ (ctl can (ctl can k (.add fd ⟨false, true, et⟩)).1 (.del fd)).2 = true := by
  have h1 := hk .read
  simp [ctl, adds, dels, kevent, hw, KQ.set, h1]

/-- A refused add can leave reading watched. -/
theorem refused_add_stays (can : Int → Filt → Bool) (k : KQ) (fd : Int) (et : Bool) (hr : can fd .read = true) (hw : can fd .write = false) :
    (ctl can k (.add fd ⟨true, true, et⟩)).2 = false ∧ (ctl can k (.add fd ⟨true, true, et⟩)).1 fd .read = some et := by
  simp [ctl, adds, kevent, hr, hw, KQ.set]

/-- A change of what is watched from writing to reading leaves writing watched (the library itself makes no such call). -/
theorem mod_stays (can : Int → Filt → Bool) (k : KQ) (fd : Int) (et : Bool) (c : Bool) (hr : k fd .read = none) (hw : k fd .write = some c) (h : can fd .read = true) :
    (ctl can k (.mod fd ⟨true, false, et⟩)).2 = true ∧ (ctl can k (.mod fd ⟨true, false, et⟩)).1 fd .write = some c := by
  simp [ctl, adds, dels, kevent, hr, hw, h, KQ.set]

/-- What the user has registered, after the calls that returned 0: the specification. -/
def regStep (r : Int → Option Want) (c : Ctl) (ok : Bool) : Int → Option Want :=
  match c with
  | .add fd w => if ok then fun x => if x = fd then some w else r x else r
  | .mod fd w => if ok then fun x => if x = fd then some w else r x else r
  | .del fd => fun x => if x = fd then none else r x

/-- The poller and the registrations after a history of calls. -/
def hist (can : Int → Filt → Bool) : KQ × (Int → Option Want) → List Ctl → KQ × (Int → Option Want)
  | s, [] => s
  | s, c :: cs => hist can ((ctl can s.1 c).1, regStep s.2 c (ctl can s.1 c).2) cs

/-- The poller watches exactly what is registered. -/
def Agrees (s : KQ × (Int → Option Want)) : Prop := ∀ fd f, s.1 fd f = (s.2 fd).elim none (fun w => asked w f)

/-- The library's calls, in states where they are made: an fd is added when it is not registered (the library keeps one registration per fd), for reading at least. -/
def Usual (can : Int → Filt → Bool) : KQ × (Int → Option Want) → List Ctl → Prop
  | _, [] => True
  | s, c :: cs =>
    (match c with
      | .add fd w => s.2 fd = none ∧ w.inn = true ∧ (w.out = true → can fd .read = true → can fd .write = true)
      | .mod _ _ => False
      | .del _ => True) ∧ Usual can ((ctl can s.1 c).1, regStep s.2 c (ctl can s.1 c).2) cs

/-- The property, for the histories of fds that are read (and, if they are written as well, can be): after any history the poller watches exactly what is registered. -/
theorem agrees_partial (can : Int → Filt → Bool) (cs : List Ctl) : ∀ s, Agrees s → (∀ fd w, s.2 fd = some w → w.inn = true) → Usual can s cs → Agrees (hist can s cs) := by
  induction cs with
  | nil => intro s h _ _; exact h
  | cons c cs ih =>
    intro s h hin hu
    obtain ⟨hc, hu⟩ := hu
    simp only [hist]
    refine ih _ ?_ ?_ hu
    · cases c with
      | mod fd w => exact absurd hc (by simp)
      | del fd =>
        intro fd' f
        by_cases hfd : fd' = fd
        · subst hfd
          have hclean : (s.1 fd' .read).isSome ∨ s.1 fd' .write = none := by
            cases hr : s.2 fd' with
            | none => right; rw [h fd' .write, hr]; rfl
            | some w => left; rw [h fd' .read, hr]; simp [asked, hin fd' w hr]
          have := (del_clean_iff can s.1 fd').2 hclean f
          simp only [this, regStep, if_true]; rfl
        · rw [show ((ctl can s.1 (.del fd)).1, regStep s.2 (.del fd) (ctl can s.1 (.del fd)).2).1 fd' f = s.1 fd' f from del_others can s.1 fd fd' f hfd]
          simp only [regStep, hfd, if_false]; exact h fd' f
      | add fd w =>
        obtain ⟨hnone, hinn, hboth⟩ := hc
        have hk : ∀ f, s.1 fd f = none := by intro f; rw [h fd f, hnone]; rfl
        cases hok : (ctl can s.1 (.add fd w)).2 with
        | true =>
          obtain ⟨h1, h2⟩ := add_exact can s.1 fd w hk hok
          intro fd' f
          by_cases hfd : fd' = fd
          · subst hfd; simp only [h1 f, regStep, if_true]; rfl
          · simp only [h2 fd' f hfd, regStep, if_true, hfd, if_false]; exact h fd' f
        | false =>
          have hsame : (ctl can s.1 (.add fd w)).1 = s.1 := by
            rcases w with ⟨i, o, e⟩
            simp only at hinn; subst hinn
            cases hr : can fd .read with
            | false => cases o <;> simp [ctl, adds, kevent, hr]
            | true =>
              cases o with
              | false => simp [ctl, adds, kevent, hr] at hok
              | true => simp [ctl, adds, kevent, hr, hboth rfl hr] at hok
          intro fd' f
          simp only [regStep, hsame]; exact h fd' f
    · intro fd' w' hw'
      cases c with
      | mod fd w => exact absurd hc (by simp)
      | del fd =>
        simp only [regStep] at hw'
        split at hw'
        · cases hw'
        · exact hin _ _ hw'
      | add fd w =>
        simp only [regStep] at hw'
        cases hok : (ctl can s.1 (.add fd w)).2 with
        | true =>
          simp only [hok, if_true] at hw'
          by_cases hx : fd' = fd
          · simp only [hx, if_true, Option.some.injEq] at hw'; subst hw'; exact hc.2.1
          · simp only [hx, if_false] at hw'; exact hin _ _ hw'
        | false => simp only [hok] at hw'; exact hin _ _ hw'

/-- In full it is false: an fd registered for writing only, then unregistered. -/
theorem agrees_false : ∃ cs : List Ctl, ¬ Agrees (hist (fun _ _ => true) (fun _ _ => none, fun _ => none) cs) := by
  refine ⟨[.add 5 ⟨false, true, true⟩, .del 5], fun h => ?_⟩
  have := h 5 .write
  exact absurd this (by decide)

example : Usual (fun _ _ => true) (fun _ _ => none, fun _ => none) [.add 3 ⟨true, false, false⟩, .add 5 ⟨true, true, true⟩, .del 5, .add 5 ⟨true, false, true⟩] := by
  refine ⟨⟨by rfl, by rfl, by simp⟩, ⟨by rfl, by rfl, by simp⟩, trivial, ⟨by rfl, by rfl, by simp⟩, trivial⟩

example : (hist (fun _ _ => true) (fun _ _ => none, fun _ => none) [.add 3 ⟨true, false, false⟩, .add 5 ⟨true, true, true⟩, .del 5, .add 5 ⟨true, false, true⟩]).1 5 .write = none ∧
    (hist (fun _ _ => true) (fun _ _ => none, fun _ => none) [.add 3 ⟨true, false, false⟩, .add 5 ⟨true, true, true⟩, .del 5, .add 5 ⟨true, false, true⟩]).1 5 .read = some true := by
  decide

/-! ## C126 and C106 on darwin: failed connects, half-closed connections -/

/-- A connect that fails is announced as a success first: kqueue reports it as writable with EV_EOF, not as an error. -/
theorem darwin_connect_announces_success (chk : Option (List Byte → Int)) (size : Nat) (mem : List Byte) (fd : Int) (rs : List RRes) :
    (dispatchAll ⟨chk, size, idle, idle⟩ (.drained .keep) rs (connect ⟨chk, size, idle, idle⟩ mem .inProgress .blocked).1 [⟨fd, .write, false, true⟩]).seen =
      [.ready, .cb (.error 2)] := by
  obtain ⟨h1, _⟩ := eac_spec ⟨chk, size, idle, idle⟩ (init mem) IOFD_HUP rfl
  have hreg : (init mem).reg = true := rfl
  have h2 : dispatchAll ⟨chk, size, idle, idle⟩ (.drained .keep) rs (connect ⟨chk, size, idle, idle⟩ mem .inProgress .blocked).1 [⟨fd, .write, false, true⟩] =
      BFd.take ⟨init mem, [.ready]⟩ (eventAndClose ⟨chk, size, idle, idle⟩ (init mem) IOFD_HUP) := by
    simp [dispatchAll, report, connect, dispatch, hreg, writePart]
  rw [h2]
  simp only [BFd.take, h1, drop_len]
  rfl

theorem take_reg (f : BFd) (g : RFd) : (f.take g).r = g := rfl

/-- A peer that only ends its own sending (EV_EOF of the read filter) makes the library close the connection in both directions. -/
theorem darwin_half_close_closes (c : Cfg) (f : BFd) (fd : Int) (w : WOut) (rs : List RRes) (hb : (readPart c f rs).2 = false) (ho : (readPart c f rs).1.r.isOpen = true) :
    (dispatchAll c w rs f [⟨fd, .read, false, true⟩]).r.reg = false := by
  obtain ⟨_, h2⟩ := eac_spec c (readPart c f rs).1.r IOFD_HUP ho
  cases hreg : f.r.reg with
  | false => simp [dispatchAll, dispatch, hreg]
  | true =>
    simp only [dispatchAll, report, dispatch, hreg]
    simp [hb, take_reg, h2]

/-- On linux the same condition is reported as readable only and the connection stays registered when the callbacks leave it alone. -/
theorem linux_half_close_stays (c : Cfg) (f : BFd) (w : WOut) (rs : List RRes) (hreg : f.r.reg = true) (hr : (readPart c f rs).1.r.reg = true) :
    (dispatch .epoll c f ⟨false, false, true, false⟩ w rs).r.reg = true := by
  simp only [dispatch, hreg]
  cases hb : (readPart c f rs).2 <;> simp [hb, hr]

/-- Each event goes to the fd it is for, and says only what its filter found. -/
theorem report_faithful (e : KEv) : (report e).1 = e.fd ∧ ((report e).2.inn = true ↔ e.filt = .read) ∧ ((report e).2.out = true ↔ e.filt = .write) ∧
    (report e).2.err = e.error ∧ (report e).2.hup = e.eof := by
  rcases e with ⟨fd, f, er, eo⟩; cases f <;> simp [report]

example : (dispatchAll ⟨none, 8, idle, idle⟩ .blocked [.dgram [1, 2], .again] ⟨init (List.replicate 8 0), []⟩ [⟨4, .read, false, true⟩]).seen =
    [.cb (.data [1, 2]), .cb (.error 2)] := by decide +kernel

end Verif.PortIomp
