import Verif.RouteKnow
import Verif.RouteProps
/-! Properties C212 (the subscriber knows the network) and C213 (mobile network). -/
namespace Verif.RouteKnow
open Verif.Route Verif.Route.Spec
open Verif.NetUtil (AF_UNSPEC AF_INET AF_INET6)

/-! ## Specification -/
namespace Spec

/-- What the subscriber keeps is the network `o`: nothing when it is down, otherwise a description of
    the same routes, as many in each family. -/
def Knows (v : Option DefRt) (o : Obs) : Prop :=
  match v with
  | none => ¬ Up o
  | some d => Up o ∧ ∃ o', DescribesNet d o' ∧ SameNet o' o ∧ SameCount o' o

/-- The network at the last observation made for a subscriber: what the last route message (or the
    subscription) showed, nothing when there is no subscriber. `Net.run` of C69 keeps it. -/
noncomputable def network (v6 : Bool) (ops : List Op) : Obs := (Net.run v6 Net.init ops).prev

end Spec
open Spec

/-! ## Lemmas -/

theorem same_refl (n : Nat) (f : Option Found) : Same n f f := by
  cases f <;> simp [Same]
theorem same_trans {n : Nat} {f g h : Option Found} (a : Same n f g) (b : Same n g h) : Same n f h := by
  cases f <;> cases g <;> cases h <;> simp only [Same] at * <;> try trivial
  exact ⟨a.1.trans b.1, a.2.1.trans b.2.1, fun i hi => (a.2.2 i hi).trans (b.2.2 i hi)⟩
theorem same_symm {n : Nat} {f g : Option Found} (a : Same n f g) : Same n g f := by
  cases f <;> cases g <;> simp only [Same] at * <;> try trivial
  exact ⟨a.1.symm, a.2.1.symm, fun i hi => (a.2.2 i hi).symm⟩

theorem same_none {n : Nat} {f g : Option Found} (a : Same n f g) : f = none ↔ g = none := by
  cases f <;> cases g <;> simp_all [Same]

/-- one check keeps what the subscriber knows up to date -/
theorem check_knows {v6 : Bool} {s : State} {a : Net} (h : Rel v6 s a) (junk : DefRt) (o : Obs)
    {v : Option DefRt} (hv : Knows v a.prev) : Knows (hear v (check v6 junk s o).2) (seen v6 o) := by
  obtain ⟨hd, hgt⟩ := os_get (v6 := v6) o (s.rts (!s.curr)) (fun hv => ⟨((h.off hv).1 _).1, ((h.off hv).1 _).2.1⟩)
  have hso := fun hv => seen_off (v6 := v6) o hv
  have hp := valid_iff h.prev (fun hv => (h.seen hv).1)
  have hsp := sameDef_iff hd h.prev hso (fun hv => (h.seen hv).1)
  have new : ∀ hu : Up (seen v6 o), Knows (some (osGetDefRt v6 o (s.rts (!s.curr))).2) (seen v6 o) :=
    fun hu => ⟨hu, seen v6 o, hd, ⟨same_refl _ _, same_refl _ _⟩, rfl, rfl⟩
  unfold check
  dsimp only
  by_cases hn : (osGetDefRt v6 o (s.rts (!s.curr))).1 > 0
  · rw [if_pos hn]
    have hu := hgt.1 hn
    by_cases hval : defRtValid v6 (s.rts s.curr) = true
    · simp only [hval, if_true]
      by_cases hs : sameDefRt v6 (osGetDefRt v6 o (s.rts (!s.curr))).2 (s.rts s.curr) = true
      · by_cases hc : sameCnt (osGetDefRt v6 o (s.rts (!s.curr))).2 (s.rts s.curr) = true
        · simp only [hs, hc, not_true_eq_false, if_false, hear]
          have hpu := hp.1 hval
          have hsn := hsp.1 hs
          cases v with
          | none => exact absurd hpu hv
          | some d =>
            obtain ⟨_, o', ho, hs', hc'⟩ := hv
            refine ⟨hu, o', ho, ⟨same_trans hs'.1 (same_symm hsn.1), same_trans hs'.2 (same_symm hsn.2)⟩, ?_⟩
            simp only [sameCnt, Bool.and_eq_true, decide_eq_true_eq] at hc
            have cnt : ∀ {n af : Nat} {x y : Rt} {f g : Option Found}, Describes af x f → Describes af y g →
                Same n f g → x.cnt = y.cnt → count g = count f := by
              intro n af x y f g hx hy hss hxy
              by_cases hf : f = none
              · have := (same_none hss).1 hf
                rw [hf, this]
              · have hg := mt (same_none hss).2 hf
                exact ((cnt_iff hx hy hf hg).1 hxy).symm
            exact ⟨hc'.1.trans (cnt hd.1 h.prev.1 hsn.1 hc.1), hc'.2.trans (cnt hd.2 h.prev.2 hsn.2 hc.2)⟩
        · simp only [hs, hc, not_true_eq_false, not_false_iff, if_false, if_true, hear]
          exact new hu
      · simp only [hs, not_false_iff, if_true, hear]
        exact new hu
    · simp only [hval]
      rw [if_neg (by simp)]
      split <;> exact new hu
  · rw [if_neg hn]
    have hu := mt hgt.2 hn
    by_cases hval : defRtValid v6 (s.rts s.curr) = true
    · simp only [hval, if_true, hear]; exact hu
    · simp only [hval, hear]
      have : ¬ Up a.prev := fun h => hval (hp.2 h)
      cases v with
      | none => exact hu
      | some d => exact absurd hv.1 this

theorem step_knows {v6 : Bool} {s : State} {a : Net} (h : Rel v6 s a) (junk : DefRt)
    {v : Option DefRt} (hv : Knows v a.prev) (op : Op) :
    (stepBoth v6 junk (s, v) op).1 = (Route.step v6 junk s op).1 ∧
    Knows (stepBoth v6 junk (s, v) op).2 (a.step v6 op).prev := by
  refine ⟨rfl, ?_⟩
  have hs := h.sub
  cases op with
  | subscribe q osOk o =>
    cases q with
    | none => cases osOk <;> exact hv
    | some q =>
      cases osOk with
      | false => cases hss : s.subscriber.isSome <;> simp only [stepBoth, Route.step, hss] <;> exact hv
      | true =>
        by_cases hq : a.sub = none
        · have : s.subscriber.isSome = false := by rw [hs, hq]; rfl
          simp only [stepBoth, Route.step, this, Net.step, hq, if_true]
          simpa [Net.observe] using check_knows (rel_sub h (some q)) junk o hv
        · have : s.subscriber.isSome = true := by rw [hs]; cases hq' : a.sub <;> simp_all
          simp only [stepBoth, Route.step, this, Net.step, hq, if_true, if_false]
          exact hv
  | unsubscribe q =>
    cases q with
    | none => simp only [stepBoth, Route.step, Net.step]; simpa [hear] using hv
    | some q =>
      by_cases hq : a.sub = some q
      · simp [stepBoth, Route.step, Net.step, hs, hq, hear, Knows, Net.init, nothing, Up]
      · have h1 : s.subscriber ≠ some q := by rw [hs]; exact hq
        have h2 : ¬ ((some q : Option Nat) ≠ none ∧ a.sub = some q) := fun h => hq h.2
        simp only [stepBoth, Route.step, Net.step]
        rw [if_pos h1, if_neg h2]
        exact hv
  | routeMsg o =>
    by_cases hq : a.sub = none
    · have : s.subscriber.isNone = true := by rw [hs, hq]; rfl
      simp only [stepBoth, Route.step, Net.step, hq, this, if_true]; exact hv
    · have : s.subscriber.isNone = false := by rw [hs]; cases hq' : a.sub <;> simp_all
      simp only [stepBoth, Route.step, Net.step, hq, this, if_false]
      exact check_knows h junk o hv

theorem both_run (v6 : Bool) (junk : DefRt) (ops : List Op) :
    (runBoth v6 junk ops).1 = Route.run v6 junk State.init ops ∧
    Knows (runBoth v6 junk ops).2 (network v6 ops) := by
  suffices ∀ s v a, Rel v6 s a → Knows v a.prev →
      (ops.foldl (stepBoth v6 junk) (s, v)).1 = Route.run v6 junk s ops ∧
      Knows (ops.foldl (stepBoth v6 junk) (s, v)).2 (a.run v6 ops).prev by
    exact this State.init none Net.init (rel_init v6) (by simp [Knows, Net.init, nothing, Up])
  induction ops with
  | nil => intro s v a _ hv; exact ⟨rfl, hv⟩
  | cons op ops ih =>
    intro s v a h hv
    exact ih _ _ _ (rel_step h junk op) (step_knows h junk hv op).2

/-! ## C212 -/

/-- C212. After any history of subscriptions and route messages: the subscriber that only keeps the
    route of the last event knows the network (also when the last message produced no event), and
    aosl_network_is_down answers what the subscriber knows; without a subscriber it says down. -/
theorem C212_subscriber_knows (v6 : Bool) (junk : DefRt) (ops : List Op) :
    Knows (runBoth v6 junk ops).2 (network v6 ops) ∧
    (networkIsDown v6 (runBoth v6 junk ops).1 = true ↔ (runBoth v6 junk ops).2 = none) ∧
    ((runBoth v6 junk ops).1.subscriber = none → networkIsDown v6 (runBoth v6 junk ops).1 = true) := by
  have hk := (both_run v6 junk ops).2
  have hr := rel_run v6 junk ops
  rw [← (both_run v6 junk ops).1] at hr
  have hval := valid_iff hr.prev (fun hv => (hr.seen hv).1)
  have hdown : networkIsDown v6 (runBoth v6 junk ops).1 = true ↔ ¬ Up (network v6 ops) := by
    unfold network
    rw [← hval]; unfold networkIsDown
    cases defRtValid v6 ((runBoth v6 junk ops).1.rts (runBoth v6 junk ops).1.curr) <;> simp
  refine ⟨hk, ?_, ?_⟩
  · rw [hdown]
    cases hv : (runBoth v6 junk ops).2 with
    | none => rw [hv] at hk; exact ⟨fun _ => rfl, fun _ => hk⟩
    | some d => rw [hv] at hk; exact ⟨fun h => absurd hk.1 h, fun h => by simp at h⟩
  · intro hsub
    rw [hdown]
    rw [hr.sub] at hsub
    have key : ∀ (ops : List Op) (a : Net), (a.sub = none → ¬ Up a.prev) →
        (a.run v6 ops).sub = none → ¬ Up (a.run v6 ops).prev := by
      intro ops
      induction ops with
      | nil => intro a h; exact h
      | cons op ops ih =>
        intro a h
        refine ih (a.step v6 op) ?_
        intro hs
        cases op with
        | subscribe q ok o =>
          cases q with
          | none => cases ok <;> exact h hs
          | some q =>
            cases ok with
            | false => exact h hs
            | true =>
              simp only [Net.step] at hs ⊢
              split at hs
              · simp [Net.observe] at hs
              · rename_i hh; exact absurd hs hh
        | unsubscribe q =>
          simp only [Net.step] at hs ⊢
          split
          · simp [Net.init, nothing, Up]
          · rename_i hh; rw [if_neg hh] at hs; exact h hs
        | routeMsg o =>
          simp only [Net.step] at hs ⊢
          split
          · rename_i hh; exact h hh
          · rename_i hh; rw [if_neg hh] at hs; exact absurd hs hh
    exact key ops Net.init (fun _ => by simp [Net.init, nothing, Up]) hsub

/-- C212, the order of the events. UP and UP_CHANGED come only to a subscriber that knows of no network,
    DOWN, SWITCH and CNT_CHANGED only to one that knows one, and the old route these two pass is the one
    it knows. -/
theorem C212_order (v6 : Bool) (junk : DefRt) (ops : List Op) (op : Op) (c : Call)
    (hc : (Route.step v6 junk (runBoth v6 junk ops).1 op).2.2 = some c) :
    ((c.ev = .up ∨ c.ev = .upChanged) → (runBoth v6 junk ops).2 = none) ∧
    ((c.ev = .down ∨ c.ev = .netSwitch ∨ c.ev = .cntChanged) → (runBoth v6 junk ops).2 ≠ none) ∧
    ((c.ev = .netSwitch ∨ c.ev = .cntChanged) → ∃ o, Knows (runBoth v6 junk ops).2 o ∧ DescribesNet c.rt1 o) := by
  obtain ⟨hk, hdn, _⟩ := C212_subscriber_knows v6 junk ops
  have hr := rel_run v6 junk ops
  rw [← (both_run v6 junk ops).1] at hr
  generalize hp : runBoth v6 junk ops = p at *
  obtain ⟨s, v⟩ := p
  dsimp only at *
  have hval : defRtValid v6 (s.rts s.curr) = true ↔ v ≠ none := by
    simp only [networkIsDown] at hdn
    cases hx : defRtValid v6 (s.rts s.curr) <;> simp_all
  have key : ∀ (t : State) o, t.rts = s.rts → t.curr = s.curr → (check v6 junk t o).2 = some c →
      ((c.ev = .up ∨ c.ev = .upChanged) → v = none) ∧
      ((c.ev = .down ∨ c.ev = .netSwitch ∨ c.ev = .cntChanged) → v ≠ none) ∧
      ((c.ev = .netSwitch ∨ c.ev = .cntChanged) → c.rt1 = s.rts s.curr) := by
    intro t o h1 h2 hcc
    unfold check at hcc
    dsimp only at hcc
    rw [h1, h2] at hcc
    rw [← hval]
    by_cases hx : defRtValid v6 (s.rts s.curr) = true
    · have hv : v ≠ none := hval.1 hx
      simp only [hx, if_true] at hcc ⊢
      repeat' split at hcc
      all_goals
        first
        | (simp at hcc; done)
        | (simp only [Option.some.injEq] at hcc; subst hcc; simp)
    · have hv : v = none := by
        cases v with
        | none => rfl
        | some d => exact absurd (hval.2 (by simp)) hx
      have hx' : defRtValid v6 (s.rts s.curr) = false := by simpa using hx
      simp only [hx', Bool.false_eq_true, if_false] at hcc ⊢
      repeat' split at hcc
      all_goals
        first
        | (simp at hcc; done)
        | (simp only [Option.some.injEq] at hcc; subst hcc; simp [hv])
  have fin : ((c.ev = .up ∨ c.ev = .upChanged) → v = none) ∧
      ((c.ev = .down ∨ c.ev = .netSwitch ∨ c.ev = .cntChanged) → v ≠ none) ∧
      ((c.ev = .netSwitch ∨ c.ev = .cntChanged) → c.rt1 = s.rts s.curr) := by
    cases op with
    | subscribe q ok o =>
      cases q with
      | none => simp [Route.step] at hc
      | some q =>
        simp only [Route.step] at hc
        split at hc
        · simp at hc
        · split at hc
          · simp at hc
          · exact key { s with subscriber := some q } o rfl rfl hc
    | unsubscribe q =>
      cases q with
      | none => simp [Route.step] at hc
      | some q => simp only [Route.step] at hc; split at hc <;> simp at hc
    | routeMsg o =>
      simp only [Route.step] at hc
      split at hc
      · simp at hc
      · exact key s o rfl rfl hc
  refine ⟨fin.1, fin.2.1, fun h => ⟨network v6 ops, hk, ?_⟩⟩
  rw [fin.2.2 h]
  exact hr.prev

/-- a history: up, another gateway, down, up again on the first; the subscriber follows it -/
example :
    let junk : DefRt := initDefRt
    let a : Obs := ⟨some ⟨2, 1, 1, fun _ => 1⟩, none⟩
    let b : Obs := ⟨some ⟨2, 1, 1, fun _ => 9⟩, none⟩
    let z : Obs := ⟨none, none⟩
    let h := [Op.subscribe (some 7) true a, .routeMsg b, .routeMsg b, .routeMsg z, .routeMsg a, .unsubscribe (some 7)]
    (runBoth true junk (h.take 1)).2.map (fun d => d.v4.gw.lo 0) = some 1 ∧
    (runBoth true junk (h.take 2)).2.map (fun d => d.v4.gw.lo 0) = some 9 ∧
    (runBoth true junk (h.take 3)).2.map (fun d => d.v4.gw.lo 0) = some 9 ∧
    (runBoth true junk (h.take 4)).2.map (fun d => d.v4.gw.lo 0) = none ∧
    (runBoth true junk (h.take 5)).2.map (fun d => d.v4.gw.lo 0) = some 1 ∧
    (runBoth true junk h).2.map (fun d => d.v4.gw.lo 0) = none := by decide +kernel

/-! ## C213 -/

namespace Spec

/-- The name of the interface of a family's route at the last observation (none: no route), after one
    more operation. The outer option: is there a route; the inner one: is its interface known. -/
structure Last where
  sub : Option Nat
  v4 : Option (Option (List Char))
  v6 : Option (Option (List Char))

def Last.init : Last := ⟨none, none, none⟩

def Last.observe (v6 : Bool) (l : Last) (o : Obs) (n : Names) : Last :=
  ⟨l.sub, o.v4.map fun _ => n.v4, if v6 then o.v6.map fun _ => n.v6 else none⟩

def Last.step (v6 : Bool) (l : Last) : Op × Names → Last
  | (.subscribe (some q) true o, n) => if l.sub = none then Last.observe v6 { l with sub := some q } o n else l
  | (.subscribe _ _ _, _) => l
  | (.unsubscribe q, _) => if q ≠ none ∧ l.sub = q then Last.init else l
  | (.routeMsg o, n) => if l.sub = none then l else l.observe v6 o n

def Last.run (v6 : Bool) (l : Last) (ops : List (Op × Names)) : Last := ops.foldl (Last.step v6) l

open Classical in
/-- On Android everything but a "wlan…" interface is a mobile network, elsewhere nothing is. -/
noncomputable def mobile (android : Bool) (name : Option (List Char)) : Int :=
  if android = true ∧ ¬ (∃ rest, name = some ('w' :: 'l' :: 'a' :: 'n' :: rest)) then 1 else 0

end Spec

structure CRel (v6 android : Bool) (s : CState) (l : Last) : Prop where
  sub : s.base.subscriber = l.sub
  r4 : match l.v4 with
    | none => (s.base.rts s.base.curr).v4.gw.family = AF_UNSPEC
    | some n => (s.base.rts s.base.curr).v4.gw.family = AF_INET ∧ (s.cell s.base.curr).v4 = cellnet android n
  r6 : match l.v6 with
    | none => (s.base.rts s.base.curr).v6.gw.family = AF_UNSPEC
    | some n => (s.base.rts s.base.curr).v6.gw.family = AF_INET6 ∧ (s.cell s.base.curr).v6 = cellnet android n
  off : v6 = false → ∀ b, (s.base.rts b).v6.gw.family = AF_UNSPEC

theorem cellnet_spec (android : Bool) (name : Option (List Char)) : cellnet android name = mobile android name := by
  unfold cellnet mobile
  cases android with
  | false => cases name <;> simp
  | true =>
    cases name with
    | none => simp
    | some n =>
      match n with
      | [] => simp
      | [a] => simp
      | [a, b] => simp
      | [a, b, c] => simp
      | a :: b :: c :: d :: rest =>
        by_cases h : a = 'w' ∧ b = 'l' ∧ c = 'a' ∧ d = 'n'
        · obtain ⟨rfl, rfl, rfl, rfl⟩ := h; simp
        · simp [h]

theorem crel_init (v6 android : Bool) : CRel v6 android CState.init Last.init :=
  ⟨rfl, rfl, rfl, fun _ _ => rfl⟩

theorem check_base (v6 : Bool) (junk : DefRt) (s : Route.State) (o : Obs) :
    (check v6 junk s o).1.curr = (!s.curr) ∧ (check v6 junk s o).1.subscriber = s.subscriber ∧
    (check v6 junk s o).1.rts = fun b => if b = !s.curr then (osGetDefRt v6 o (s.rts (!s.curr))).2 else s.rts b := by
  unfold check
  dsimp only
  split <;> exact ⟨rfl, rfl, rfl⟩

theorem check_cell {v6 android : Bool} {s : CState} {l : Last} (h : CRel v6 android s l) (junk : DefRt) (o : Obs) (n : Names) :
    CRel v6 android ⟨(check v6 junk s.base o).1, checkCell v6 android s o n⟩ (l.observe v6 o n) := by
  obtain ⟨e1, e2, e3⟩ := check_base v6 junk s.base o
  constructor
  · exact e2.trans h.sub
  · simp only [Last.observe, e1, e3, checkCell, if_true]
    cases h4 : o.v4 <;> cases v6 <;> simp [osGetDefRt, afGet, invalidateRt, osGetCell, h4]
  · simp only [Last.observe, e1, e3, checkCell, if_true]
    cases v6 with
    | false => simpa [osGetDefRt] using h.off rfl _
    | true => cases h6 : o.v6 <;> simp [osGetDefRt, afGet, invalidateRt, osGetCell, h6]
  · intro hv b
    subst hv
    simp only [e3]
    by_cases hb : b = !s.base.curr
    · rw [if_pos hb]; exact h.off rfl _
    · rw [if_neg hb]; exact h.off rfl b

theorem crel_step {v6 android : Bool} {s : CState} {l : Last} (h : CRel v6 android s l) (junk : DefRt) (op : Op × Names) :
    CRel v6 android (step v6 android junk s op).1 (l.step v6 op) := by
  obtain ⟨op, n⟩ := op
  have hs := h.sub
  cases op with
  | subscribe q osOk o =>
    cases q with
    | none => cases osOk <;> exact h
    | some q =>
      cases osOk with
      | false => cases hss : s.base.subscriber.isSome <;> simp [step, Route.step, hss, Last.step] <;> exact h
      | true =>
        by_cases hq : l.sub = none
        · have hn : s.base.subscriber.isSome = false := by rw [hs, hq]; rfl
          have h' : CRel v6 android ⟨{ s.base with subscriber := some q }, s.cell⟩ { l with sub := some q } :=
            ⟨rfl, h.r4, h.r6, h.off⟩
          have := check_cell h' junk o n
          simp only [step, Route.step, hn, Last.step, hq, if_true]
          exact this
        · have hn : s.base.subscriber.isSome = true := by rw [hs]; cases hq' : l.sub <;> simp_all
          simp only [step, Route.step, hn, Last.step, hq, if_true, if_false]
          exact h
  | unsubscribe q =>
    cases q with
    | none => simp only [step, Route.step, Last.step]; simpa using h
    | some q =>
      by_cases hq : l.sub = some q
      · simp only [step, Route.step, Last.step, hs, hq]
        simp only [ne_eq, not_true_eq_false, if_false, reduceCtorEq, not_false_iff, and_self, if_true]
        exact ⟨rfl, rfl, rfl, fun _ _ => rfl⟩
      · have h1 : s.base.subscriber ≠ some q := by rw [hs]; exact hq
        have h2 : ¬ ((some q : Option Nat) ≠ none ∧ l.sub = some q) := fun h => hq h.2
        simp only [step, Route.step, Last.step]
        rw [if_pos h1, if_pos h1, if_neg h2]
        exact h
  | routeMsg o =>
    by_cases hq : l.sub = none
    · have hn : s.base.subscriber.isNone = true := by rw [hs, hq]; rfl
      simp only [step, Route.step, Last.step, hq, hn, if_true]; exact h
    · have hn : s.base.subscriber.isNone = false := by rw [hs]; cases hq' : l.sub <;> simp_all
      simp only [step, Route.step, Last.step, hq, hn]
      exact check_cell h junk o n

theorem crel_run (v6 android : Bool) (junk : DefRt) (ops : List (Op × Names)) :
    CRel v6 android (run v6 android junk CState.init ops) (Last.run v6 Last.init ops) := by
  suffices ∀ s l, CRel v6 android s l → CRel v6 android (run v6 android junk s ops) (Last.run v6 l ops) from
    this _ _ (crel_init v6 android)
  induction ops with
  | nil => intro s l h; exact h
  | cons op ops ih => intro s l h; exact ih _ _ (crel_step h junk op)

/-- C213. After any history aosl_is_mobile_net answers about the default route of the last observation:
    whether its interface is a mobile one (Android; never elsewhere), and -1 (EINVAL) when the family has
    no default route, when nobody is subscribed, when the family is neither IPv4 nor IPv6 and for IPv6
    without IPv6 support. -/
theorem C213_mobile (v6 android : Bool) (junk : DefRt) (ops : List (Op × Names)) (af : Nat) :
    let s := run v6 android junk CState.init ops
    let l := Last.run v6 Last.init ops
    isMobileNet v6 s af = (if af = AF_INET then l.v4.map (mobile android)
      else if af = AF_INET6 then l.v6.map (mobile android) else none) ∧
    (s.base.subscriber = none → isMobileNet v6 s af = none) ∧
    (v6 = false → isMobileNet v6 s AF_INET6 = none) ∧
    (android = false → isMobileNet v6 s af ≠ some 1) := by
  intro s l
  have h : CRel v6 android s l := crel_run v6 android junk ops
  have hoff : v6 = false → l.v6 = none := by
    intro hv
    have h6 := h.r6
    have := h.off hv s.base.curr
    cases hl : l.v6 with
    | none => rfl
    | some n => rw [hl] at h6; rw [h6.1] at this; simp [AF_INET6, AF_UNSPEC] at this
  have main : isMobileNet v6 s af = (if af = AF_INET then l.v4.map (mobile android)
      else if af = AF_INET6 then l.v6.map (mobile android) else none) := by
    have h4 := h.r4; have h6 := h.r6
    unfold isMobileNet
    dsimp only
    by_cases a4 : af = AF_INET
    · simp only [a4, if_true]
      cases hl : l.v4 with
      | none => rw [hl] at h4; simp [h4]
      | some n => rw [hl] at h4; simp [h4.1, h4.2, cellnet_spec, AF_INET, AF_UNSPEC]
    · simp only [a4, if_false]
      by_cases a6 : af = AF_INET6
      · cases hv : v6 with
        | false => simp [a6, hoff hv]
        | true =>
          simp only [a6, and_self, if_true]
          cases hl : l.v6 with
          | none => rw [hl] at h6; simp [h6]
          | some n => rw [hl] at h6; simp [h6.1, h6.2, cellnet_spec, AF_INET6, AF_UNSPEC]
      · simp [a6]
  have hnosub : l.sub = none → l.v4 = none ∧ l.v6 = none := by
    have key : ∀ (ops : List (Op × Names)) (l : Last), (l.sub = none → l.v4 = none ∧ l.v6 = none) →
        (Last.run v6 l ops).sub = none → (Last.run v6 l ops).v4 = none ∧ (Last.run v6 l ops).v6 = none := by
      intro ops
      induction ops with
      | nil => intro l h; exact h
      | cons op ops ih =>
        intro l h
        refine ih (l.step v6 op) ?_
        intro hs
        obtain ⟨op, n⟩ := op
        cases op with
        | subscribe q ok o =>
          cases q with
          | none => cases ok <;> exact h hs
          | some q =>
            cases ok with
            | false => exact h hs
            | true =>
              simp only [Last.step] at hs ⊢
              split at hs
              · simp [Last.observe] at hs
              · rename_i hh; exact absurd hs hh
        | unsubscribe q =>
          simp only [Last.step] at hs ⊢
          split
          · exact ⟨rfl, rfl⟩
          · rename_i hh; rw [if_neg hh] at hs; exact h hs
        | routeMsg o =>
          simp only [Last.step] at hs ⊢
          split
          · rename_i hh; exact h hh
          · rename_i hh; rw [if_neg hh] at hs; exact absurd hs hh
    exact key ops Last.init (fun _ => ⟨rfl, rfl⟩)
  refine ⟨main, ?_, ?_, ?_⟩
  · intro hs
    rw [h.sub] at hs
    obtain ⟨e4, e6⟩ := hnosub hs
    rw [main, e4, e6]; simp
  · intro hv
    unfold isMobileNet; dsimp only
    simp [AF_INET, AF_INET6, hv]
  · intro ha
    rw [main]
    have : ∀ x : Option (Option (List Char)), x.map (mobile android) ≠ some 1 := by
      intro x; cases x <;> simp [mobile, ha]
    split
    · exact this _
    · split
      · exact this _
      · simp

/-- C213, the limit of the events. The flag is not compared when deciding about an event: an interface
    that keeps its number, type and gateway but gets another name changes the answer without one. -/
theorem C213_unreported (junk : DefRt) :
    let o : Obs := ⟨some ⟨3, 1, 1, fun _ => 1⟩, none⟩
    let s := run true true junk CState.init [(.subscribe (some 7) true o, ⟨some "wlan0".toList, none⟩)]
    let r := step true true junk s (.routeMsg o, ⟨some "rmnet0".toList, none⟩)
    isMobileNet true s AF_INET = some 0 ∧ isMobileNet true r.1 AF_INET = some 1 ∧ r.2.2.isNone = true :=
  ⟨rfl, rfl, rfl⟩

/-- a history: nobody, wlan0, mobile data, down -/
example :
    let o : Obs := ⟨some ⟨3, 1, 1, fun _ => 1⟩, none⟩
    let h : List (Op × Names) := [(.subscribe (some 7) true o, ⟨some "wlan0".toList, none⟩),
      (.routeMsg ⟨some ⟨4, 1, 1, fun _ => 2⟩, none⟩, ⟨none, none⟩), (.routeMsg ⟨none, none⟩, ⟨none, none⟩)]
    let m := fun k => isMobileNet true (run true true initDefRt CState.init (h.take k)) AF_INET
    m 0 = none ∧ m 1 = some 0 ∧ m 2 = some 1 ∧ m 3 = none := by decide +kernel

end Verif.RouteKnow
