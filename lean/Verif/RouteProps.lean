import Verif.Route
import Verif.NetUtilProps
/-! Properties C69 (network events), C70 (subscription), C84 (route text), C85 (choice of the default route). -/
namespace Verif.Route
open Verif.NetUtil (Sk ipEqual AF_UNSPEC AF_INET AF_INET6 memEq_iff)

/-! ## Specification: what the subscriber is told -/
namespace Spec

/-- same route of one family: interface, its type and the `n` bytes of the gateway address -/
def Same (n : Nat) : Option Found → Option Found → Prop
  | none, none => True
  | some a, some b => a.ifIndex = b.ifIndex ∧ a.ifType = b.ifType ∧ ∀ i < n, a.gw i = b.gw i
  | _, _ => False

/-- number of default routes of one family, not distinguishing more than two -/
def count : Option Found → Nat
  | none => 0
  | some f => min f.cnt 2

def Up (o : Obs) : Prop := o.v4 ≠ none ∨ o.v6 ≠ none
def SameNet (a b : Obs) : Prop := Same 4 a.v4 b.v4 ∧ Same 16 a.v6 b.v6
def SameCount (a b : Obs) : Prop := count a.v4 = count b.v4 ∧ count a.v6 = count b.v6
def nothing : Obs := ⟨none, none⟩

/-- without IPv6 support the IPv6 routes are not seen -/
def seen (v6 : Bool) (o : Obs) : Obs := if v6 then o else ⟨o.v4, none⟩

/-- the subscriber, the network at the previous observation, the last network that was up -/
structure Net where
  sub : Option Nat
  prev : Obs
  last : Obs

def Net.init : Net := ⟨none, nothing, nothing⟩

/-- The event to be reported for observation `o`, with the two networks passed to the function. -/
inductive Event (a : Net) (o : Obs) : Option (Ev × Obs × Obs) → Prop where
  | down : Up a.prev → ¬ Up o → Event a o (some (.down, nothing, nothing))
  | stillDown : ¬ Up a.prev → ¬ Up o → Event a o none
  | up : ¬ Up a.prev → Up o → (Up a.last → SameNet o a.last) → Event a o (some (.up, o, nothing))
  | upChanged : ¬ Up a.prev → Up o → Up a.last → ¬ SameNet o a.last → Event a o (some (.upChanged, a.last, o))
  | netSwitch : Up a.prev → Up o → ¬ SameNet o a.prev → Event a o (some (.netSwitch, a.prev, o))
  | cntChanged : Up a.prev → Up o → SameNet o a.prev → ¬ SameCount o a.prev → Event a o (some (.cntChanged, a.prev, o))
  | unchanged : Up a.prev → Up o → SameNet o a.prev → SameCount o a.prev → Event a o none

open Classical in
/-- the network after an observation -/
noncomputable def Net.observe (a : Net) (o : Obs) : Net := ⟨a.sub, o, if Up o then o else a.last⟩

open Classical in
/-- the network after an operation -/
noncomputable def Net.step (v6 : Bool) (a : Net) : Op → Net
  | .subscribe (some q) true o => if a.sub = none then Net.observe { a with sub := some q } (seen v6 o) else a
  | .subscribe _ _ _ => a
  | .unsubscribe q => if q ≠ none ∧ a.sub = q then Net.init else a
  | .routeMsg o => if a.sub = none then a else a.observe (seen v6 o)

noncomputable def Net.run (v6 : Bool) (a : Net) (ops : List Op) : Net := ops.foldl (Net.step v6) a

/-- a structure passed to the function describes the default routes of `f` (family `af`) -/
def Describes (af : Nat) (r : Rt) : Option Found → Prop
  | none => r.ifIndex = -1 ∧ r.gw.family = AF_UNSPEC
  | some f => r.ifIndex = f.ifIndex ∧ r.ifType = f.ifType ∧ r.cnt = (min f.cnt 2 : Nat) ∧ r.gw.family = af ∧
      r.gw.lo = f.gw ∧ r.gw.hi = f.gw
def DescribesNet (d : DefRt) (o : Obs) : Prop := Describes AF_INET d.v4 o.v4 ∧ Describes AF_INET6 d.v6 o.v6

/-- a call of the function is the given report -/
def IsReport : Option Call → Option (Ev × Obs × Obs) → Prop
  | none, none => True
  | some c, some (ev, a, b) => c.ev = ev ∧ DescribesNet c.rt1 a ∧ DescribesNet c.rt2 b
  | _, _ => False

end Spec
open Spec

/-! ## Lemmas -/

structure Rel (v6 : Bool) (s : State) (a : Net) : Prop where
  sub : s.subscriber = a.sub
  prev : DescribesNet (s.rts s.curr) a.prev
  last : DescribesNet s.last a.last
  off : v6 = false → (∀ b, (s.rts b).v6.ifIndex = -1 ∧ (s.rts b).v6.gw.family = AF_UNSPEC ∧ (s.rts b).v6.cnt = 0) ∧
    s.last.v6.ifIndex = -1 ∧ s.last.v6.gw.family = AF_UNSPEC
  seen : v6 = false → a.prev.v6 = none ∧ a.last.v6 = none

theorem rel_init (v6 : Bool) : Rel v6 State.init Net.init := by
  constructor
  · rfl
  · exact ⟨⟨rfl, rfl⟩, ⟨rfl, rfl⟩⟩
  · exact ⟨⟨rfl, rfl⟩, ⟨rfl, rfl⟩⟩
  · intro _; exact ⟨fun _ => ⟨rfl, rfl, rfl⟩, rfl, rfl⟩
  · intro _; exact ⟨rfl, rfl⟩

theorem same_rt {af n : Nat} {a b : Rt} {f g : Option Found} (hn : (af = AF_INET ∧ n = 4) ∨ (af = AF_INET6 ∧ n = 16))
    (ha : Describes af a f) (hb : Describes af b g) : sameRt a b = true ↔ Same n f g := by
  cases f with
  | none =>
    cases g with
    | none => simp [sameRt, ha.1, hb.1, Same]
    | some g =>
      simp only [Describes] at ha hb
      have h1 : ¬ ((g.ifIndex : Int) < 0) := by omega
      have h2 : ¬ ((-1 : Int) = g.ifIndex) := by omega
      simp [sameRt, ha.1, hb.1, h2, Same]
  | some f =>
    cases g with
    | none =>
      simp only [Describes] at ha hb
      have h2 : ¬ ((f.ifIndex : Int) = -1) := by omega
      simp [sameRt, ha.1, hb.1, h2, Same]
    | some g =>
      simp only [Describes] at ha hb
      obtain ⟨a1, a2, a3, a4, a5, a6⟩ := ha
      obtain ⟨b1, b2, b3, b4, b5, b6⟩ := hb
      have h1 : ¬ ((f.ifIndex : Int) < 0 ∧ (g.ifIndex : Int) < 0) := by omega
      have hip : ipEqual a.gw b.gw = true ↔ ∀ i < n, f.gw i = g.gw i := by
        rcases hn with ⟨h, hn⟩ | ⟨h, hn⟩ <;> subst h hn
        · simp [ipEqual, a4, b4, a5, b5, AF_INET, AF_UNSPEC, memEq_iff]
        · simp [ipEqual, a4, b4, a6, b6, AF_INET, AF_INET6, AF_UNSPEC, memEq_iff]
      simp only [sameRt, a1, b1, h1, if_false, a2, b2, Same]
      by_cases h3 : f.ifIndex = g.ifIndex
      · by_cases h4 : f.ifType = g.ifType
        · simp [h3, h4, hip]
        · simp [h3, h4]
      · have : ¬ ((f.ifIndex : Int) = g.ifIndex) := by omega
        simp [h3, this]

theorem rt_valid {v6 : Bool} {af : Nat} {a : Rt} {f : Option Found} (hv : af = AF_INET ∨ (af = AF_INET6 ∧ v6 = true))
    (ha : Describes af a f) : rtValid v6 a = true ↔ f ≠ none := by
  cases f with
  | none => simp [rtValid, ha.1]
  | some f =>
    simp only [Describes] at ha
    have : ¬ ((f.ifIndex : Int) < 0) := by omega
    rcases hv with h | ⟨h, h'⟩ <;> subst h
    · simp [rtValid, ha.1, ha.2.2.2.1, this]
    · simp [rtValid, ha.1, ha.2.2.2.1, this, h']

theorem describes_inval (af : Nat) (r : Rt) : Describes af (invalidateRt r) none := ⟨rfl, rfl⟩

theorem describes_get (af : Nat) (r : Rt) (f : Option Found) : Describes af (afGet af f r).2 f := by
  cases f with
  | none => exact describes_inval af r
  | some f =>
    refine ⟨rfl, rfl, ?_, rfl, rfl, rfl⟩
    simp only [afGet]
    by_cases h : f.cnt > 2 <;> simp [h] <;> omega

theorem afGet_got (af : Nat) (r : Rt) (f : Option Found) : (afGet af f r).1 = true ↔ f ≠ none := by
  cases f <;> simp [afGet]

theorem valid_iff {v6 : Bool} {d : DefRt} {o : Obs} (h : DescribesNet d o) (hs : v6 = false → o.v6 = none) :
    defRtValid v6 d = true ↔ Up o := by
  cases hv : v6
  · have := hs hv
    have h6 : rtValid false d.v6 = false := by
      have := h.2; rw [hs hv] at this; simp [rtValid, this.1]
    simp [defRtValid, h6, rt_valid (v6 := false) (.inl rfl) h.1, Up, this]
  · simp only [defRtValid, Bool.or_eq_true, rt_valid (v6 := true) (.inl rfl) h.1, rt_valid (v6 := true) (.inr ⟨rfl, rfl⟩) h.2, Up]

theorem sameDef_iff {v6 : Bool} {d d' : DefRt} {o o' : Obs} (h : DescribesNet d o) (h' : DescribesNet d' o')
    (hs : v6 = false → o.v6 = none) (hs' : v6 = false → o'.v6 = none) : sameDefRt v6 d d' = true ↔ SameNet o o' := by
  have h4 := same_rt (.inl ⟨rfl, rfl⟩) h.1 h'.1
  have h6 := same_rt (.inr ⟨rfl, rfl⟩) h.2 h'.2
  cases hv : v6
  · have e1 := hs hv; have e2 := hs' hv
    simp [sameDefRt, SameNet, h4, e1, e2, Same]
  · simp [sameDefRt, SameNet, h4, h6]

/-- what the second buffer contains after os_get_def_rt -/
theorem os_get {v6 : Bool} (o : Obs) (old : DefRt) (hoff : v6 = false → old.v6.ifIndex = -1 ∧ old.v6.gw.family = AF_UNSPEC) :
    DescribesNet (osGetDefRt v6 o old).2 (seen v6 o) ∧ ((osGetDefRt v6 o old).1 > 0 ↔ Up (seen v6 o)) := by
  have g4 := afGet_got AF_INET old.v4 o.v4
  have g6 := afGet_got AF_INET6 old.v6 o.v6
  cases hv : v6
  · constructor
    · exact ⟨describes_get _ _ _, hoff hv⟩
    · show (afGet AF_INET o.v4 old.v4).1.toNat > 0 ↔ (o.v4 ≠ none ∨ (none : Option Found) ≠ none)
      rw [← g4]
      cases (afGet AF_INET o.v4 old.v4).1 <;> simp
  · constructor
    · exact ⟨describes_get _ _ _, describes_get _ _ _⟩
    · show (afGet AF_INET o.v4 old.v4).1.toNat + (afGet AF_INET6 o.v6 old.v6).1.toNat > 0 ↔ (o.v4 ≠ none ∨ o.v6 ≠ none)
      rw [← g4, ← g6]
      cases (afGet AF_INET o.v4 old.v4).1 <;> cases (afGet AF_INET6 o.v6 old.v6).1 <;> simp

theorem cnt_iff {af : Nat} {a b : Rt} {f g : Option Found} (ha : Describes af a f) (hb : Describes af b g)
    (hf : f ≠ none) (hg : g ≠ none) : a.cnt = b.cnt ↔ count f = count g := by
  cases f with
  | none => exact absurd rfl hf
  | some f =>
    cases g with
    | none => exact absurd rfl hg
    | some g =>
      simp only [Describes] at ha hb
      rw [ha.2.2.1, hb.2.2.1]
      simp only [count]
      omega

theorem seen_off {v6 : Bool} (o : Obs) (h : v6 = false) : (seen v6 o).v6 = none := by subst h; rfl

/-- When are the counts compared correctly. -/
def CountsFresh (v6 : Bool) (a : Net) (o : Obs) : Prop :=
  v6 = false ∨ (a.prev.v4 ≠ none ∧ a.prev.v6 ≠ none ∧ o.v4 ≠ none ∧ o.v6 ≠ none)

theorem check_spec {v6 : Bool} {s : State} {a : Net} (h : Rel v6 s a) (junk : DefRt) (o : Obs) :
    Rel v6 (check v6 junk s o).1 (a.observe (seen v6 o)) ∧
    (∀ x, Event a (seen v6 o) x →
      (CountsFresh v6 a (seen v6 o) → IsReport (check v6 junk s o).2 x) ∧
      ((∀ c, (check v6 junk s o).2 = some c → c.ev ≠ .cntChanged) → (∀ y, x = some y → y.1 ≠ .cntChanged) →
        IsReport (check v6 junk s o).2 x)) := by
  obtain ⟨hd, hgt⟩ := os_get (v6 := v6) o (s.rts (!s.curr)) (fun hv => ⟨((h.off hv).1 _).1, ((h.off hv).1 _).2.1⟩)
  have hso := fun hv => seen_off (v6 := v6) o hv
  have hp := valid_iff h.prev (fun hv => (h.seen hv).1)
  have hl := valid_iff h.last (fun hv => (h.seen hv).2)
  have hsp := sameDef_iff hd h.prev hso (fun hv => (h.seen hv).1)
  have hsl := sameDef_iff hd h.last hso (fun hv => (h.seen hv).2)
  have hnew : ∀ b, v6 = false → (osGetDefRt v6 o (s.rts b)).2.v6 = (s.rts b).v6 := by
    intro b hv; subst hv; rfl
  constructor
  · have hbne : s.curr ≠ (!s.curr) := by cases s.curr <;> simp
    unfold check
    dsimp only
    by_cases hn : (osGetDefRt v6 o (s.rts (!s.curr))).1 > 0
    · rw [if_pos hn]
      have hup := hgt.1 hn
      constructor
      · exact h.sub
      · simpa [Net.observe] using hd
      · simpa [Net.observe, hup] using hd
      · intro hv
        refine ⟨?_, ?_, ?_⟩
        · intro b
          dsimp only
          by_cases hb : b = !s.curr
          · rw [if_pos hb, hnew _ hv]; exact (h.off hv).1 _
          · rw [if_neg hb]; exact (h.off hv).1 b
        · dsimp only; rw [hnew _ hv]; exact ((h.off hv).1 _).1
        · dsimp only; rw [hnew _ hv]; exact ((h.off hv).1 _).2.1
      · intro hv; simp [Net.observe, hup, hso hv]
    · rw [if_neg hn]
      have hup := mt hgt.2 hn
      constructor
      · exact h.sub
      · simpa [Net.observe] using hd
      · simpa [Net.observe, hup] using h.last
      · intro hv
        refine ⟨?_, (h.off hv).2⟩
        intro b
        dsimp only
        by_cases hb : b = !s.curr
        · rw [if_pos hb, hnew _ hv]; exact (h.off hv).1 _
        · rw [if_neg hb]; exact (h.off hv).1 b
      · intro hv; simp [Net.observe, hup, hso hv, (h.seen hv).2]
  · intro x hx
    have hcnt : CountsFresh v6 a (seen v6 o) → Up a.prev → Up (seen v6 o) →
        (sameCnt (osGetDefRt v6 o (s.rts (!s.curr))).2 (s.rts s.curr) = true ↔ SameCount (seen v6 o) a.prev) := by
      intro hf hpu hou
      have key : ((osGetDefRt v6 o (s.rts (!s.curr))).2.v4.cnt = (s.rts s.curr).v4.cnt ↔ count (seen v6 o).v4 = count a.prev.v4) ∧
          ((osGetDefRt v6 o (s.rts (!s.curr))).2.v6.cnt = (s.rts s.curr).v6.cnt ↔ count (seen v6 o).v6 = count a.prev.v6) := by
        rcases hf with hv | ⟨f1, f2, f3, f4⟩
        · have p6 := (h.seen hv).1
          have o6 := hso hv
          have p4 : a.prev.v4 ≠ none := by rcases hpu with h | h; exact h; exact absurd p6 h
          have o4 : (seen v6 o).v4 ≠ none := by rcases hou with h | h; exact h; exact absurd o6 h
          refine ⟨cnt_iff hd.1 h.prev.1 o4 p4, ?_⟩
          rw [hnew _ hv, ((h.off hv).1 _).2.2, ((h.off hv).1 _).2.2, p6, o6]
          exact ⟨fun _ => rfl, fun _ => rfl⟩
        · exact ⟨cnt_iff hd.1 h.prev.1 f3 f1, cnt_iff hd.2 h.prev.2 f4 f2⟩
      simp only [sameCnt, Bool.and_eq_true, decide_eq_true_eq, SameCount, key]
    have d0 : ∀ d, DescribesNet (invalidateDefRt d) nothing := fun d => ⟨describes_inval _ _, describes_inval _ _⟩
    unfold check
    dsimp only
    cases hx with
    | down hu hn =>
      have c1 := mt hgt.1 hn
      rw [if_neg c1]
      simp only [hp.2 hu, if_true]
      exact ⟨fun _ => ⟨rfl, d0 _, d0 _⟩, fun _ _ => ⟨rfl, d0 _, d0 _⟩⟩
    | stillDown hu hn =>
      have c1 := mt hgt.1 hn
      have c2 := mt hp.1 hu
      rw [if_neg c1]
      simp only [c2]
      exact ⟨fun _ => trivial, fun _ _ => trivial⟩
    | up hu hn hs =>
      have c1 := hgt.2 hn
      have c2 := mt hp.1 hu
      rw [if_pos c1]
      have c3 : ¬ (defRtValid v6 s.last && !sameDefRt v6 (osGetDefRt v6 o (s.rts (!s.curr))).2 s.last) = true := by
        intro hc
        simp only [Bool.and_eq_true, Bool.not_eq_true'] at hc
        have := hsl.2 (hs (hl.1 hc.1))
        rw [this] at hc
        exact absurd hc.2 (by simp)
      simp only [c2, c3]
      exact ⟨fun _ => ⟨rfl, hd, d0 _⟩, fun _ _ => ⟨rfl, hd, d0 _⟩⟩
    | upChanged hu hn hlu hs =>
      have c1 := hgt.2 hn
      have c2 := mt hp.1 hu
      rw [if_pos c1]
      have c3 : (defRtValid v6 s.last && !sameDefRt v6 (osGetDefRt v6 o (s.rts (!s.curr))).2 s.last) = true := by
        have := mt hsl.1 hs
        simp [hl.2 hlu, this]
      simp only [c2, c3]
      exact ⟨fun _ => ⟨rfl, h.last, hd⟩, fun _ _ => ⟨rfl, h.last, hd⟩⟩
    | netSwitch hu hn hs =>
      have c1 := hgt.2 hn
      have c3 := mt hsp.1 hs
      rw [if_pos c1]
      simp only [hp.2 hu, if_true, c3]
      exact ⟨fun _ => ⟨rfl, h.prev, hd⟩, fun _ _ => ⟨rfl, h.prev, hd⟩⟩
    | cntChanged hu hn hs hc =>
      have c1 := hgt.2 hn
      have c3 := hsp.2 hs
      rw [if_pos c1]
      simp only [hp.2 hu, if_true, c3, not_true_eq_false, if_false]
      refine ⟨?_, fun _ h => absurd rfl (h _ rfl)⟩
      intro hf
      have := mt (hcnt hf hu hn).1 hc
      rw [if_pos this]
      exact ⟨rfl, h.prev, hd⟩
    | unchanged hu hn hs hc =>
      have c1 := hgt.2 hn
      have c3 := hsp.2 hs
      rw [if_pos c1]
      simp only [hp.2 hu, if_true, c3, not_true_eq_false, if_false]
      refine ⟨?_, ?_⟩
      · intro hf
        rw [if_neg (by simp [(hcnt hf hu hn).2 hc])]
        trivial
      · intro hne _
        split at hne
        · exact absurd rfl (hne _ rfl)
        · rename_i hcc
          rw [if_neg hcc]; trivial

theorem rel_sub {v6 : Bool} {s : State} {a : Net} (h : Rel v6 s a) (q : Option Nat) :
    Rel v6 { s with subscriber := q } { a with sub := q } := ⟨rfl, h.prev, h.last, h.off, h.seen⟩

theorem rel_step {v6 : Bool} {s : State} {a : Net} (h : Rel v6 s a) (junk : DefRt) (op : Op) :
    Rel v6 (step v6 junk s op).1 (a.step v6 op) := by
  cases op with
  | subscribe q osOk o =>
    cases q with
    | none => cases osOk <;> exact h
    | some q =>
      have hs := h.sub
      cases osOk with
      | false =>
        cases hss : s.subscriber.isSome <;> simp only [step, hss] <;> exact h
      | true =>
        by_cases hq : a.sub = none
        · have : s.subscriber.isSome = false := by rw [hs, hq]; rfl
          simp only [step, this, Net.step, hq, if_true]
          simpa using (check_spec (rel_sub h (some q)) junk o).1
        · have : s.subscriber.isSome = true := by rw [hs]; cases hq' : a.sub <;> simp_all
          simp only [step, this, Net.step, hq, if_true, if_false]
          exact h
  | unsubscribe q =>
    cases q with
    | none => simp only [step, Net.step]; simpa using h
    | some q =>
      by_cases hq : a.sub = some q
      · simp only [step, Net.step, h.sub, hq]
        simp only [ne_eq, not_true_eq_false, if_false, reduceCtorEq, not_false_iff, and_self, if_true]
        have := rel_init v6
        exact ⟨rfl, this.prev, this.last, this.off, this.seen⟩
      · have h1 : s.subscriber ≠ some q := by rw [h.sub]; exact hq
        have h2 : ¬ ((some q : Option Nat) ≠ none ∧ a.sub = some q) := fun h => hq h.2
        simp only [step, Net.step]
        rw [if_pos h1, if_neg h2]
        exact h
  | routeMsg o =>
    by_cases hq : a.sub = none
    · have : s.subscriber.isNone = true := by rw [h.sub, hq]; rfl
      simp only [step, Net.step, hq, this, if_true]; exact h
    · have : s.subscriber.isNone = false := by rw [h.sub]; cases hq' : a.sub <;> simp_all
      simp only [step, Net.step, hq, this, if_false]
      exact (check_spec h junk o).1

theorem rel_run (v6 : Bool) (junk : DefRt) (ops : List Op) : Rel v6 (run v6 junk State.init ops) (Net.run v6 Net.init ops) := by
  suffices ∀ s a, Rel v6 s a → Rel v6 (run v6 junk s ops) (a.run v6 ops) from this _ _ (rel_init v6)
  induction ops with
  | nil => intro s a h; exact h
  | cons op ops ih => intro s a h; exact ih _ _ (rel_step h junk op)

/-! ## C69 -/

theorem event_exists (a : Net) (o : Obs) : ∃ x, Event a o x := by
  by_cases h1 : Up a.prev
  · by_cases h2 : Up o
    · by_cases h3 : SameNet o a.prev
      · by_cases h4 : SameCount o a.prev
        · exact ⟨_, .unchanged h1 h2 h3 h4⟩
        · exact ⟨_, .cntChanged h1 h2 h3 h4⟩
      · exact ⟨_, .netSwitch h1 h2 h3⟩
    · exact ⟨_, .down h1 h2⟩
  · by_cases h2 : Up o
    · by_cases h3 : Up a.last
      · by_cases h4 : SameNet o a.last
        · exact ⟨_, .up h1 h2 fun _ => h4⟩
        · exact ⟨_, .upChanged h1 h2 h3 h4⟩
      · exact ⟨_, .up h1 h2 fun h => absurd h h3⟩
    · exact ⟨_, .stillDown h1 h2⟩

/-- C69 without IPv6 support. After any history, the report caused by a route message (to the
    subscriber) is exactly the event the specification asks for, and whether the network is down is
    answered correctly. -/
theorem C69_events_ipv4 (junk : DefRt) (ops : List Op) (o : Obs) :
    let s := run false junk State.init ops
    let a := Net.run false Net.init ops
    (a.sub ≠ none → ∀ x, Event a (seen false o) x → IsReport (step false junk s (.routeMsg o)).2.2 x) ∧
    (a.sub = none → (step false junk s (.routeMsg o)).2.2 = none) ∧
    (networkIsDown false s = true ↔ ¬ Up a.prev) := by
  intro s a
  have h : Rel false s a := rel_run false junk ops
  refine ⟨?_, ?_, ?_⟩
  · intro hsub x hx
    have hq : s.subscriber.isNone = false := by rw [h.sub]; cases hq' : a.sub <;> simp_all
    simp only [step, hq]
    exact ((check_spec h junk o).2 x hx).1 (.inl rfl)
  · intro hsub
    have hq : s.subscriber.isNone = true := by rw [h.sub, hsub]; rfl
    simp [step, hq]
  · have := valid_iff h.prev (fun hv => (h.seen hv).1)
    unfold networkIsDown
    rw [← this]
    cases defRtValid false (s.rts s.curr) <;> simp

/-- C69 with IPv6 support (partial: without the spurious count events). After any history, unless the
    code or the specification speaks of a changed count, or when both families have a route before and
    after, the report is exactly the specified one. -/
theorem C69_events_partial (v6 : Bool) (junk : DefRt) (ops : List Op) (o : Obs) :
    let s := run v6 junk State.init ops
    let a := Net.run v6 Net.init ops
    let c := (step v6 junk s (.routeMsg o)).2.2
    (a.sub ≠ none → ∀ x, Event a (seen v6 o) x →
      (CountsFresh v6 a (seen v6 o) ∨
       ((∀ d, c = some d → d.ev ≠ .cntChanged) ∧ (∀ y, x = some y → y.1 ≠ .cntChanged))) → IsReport c x) ∧
    (a.sub = none → c = none) ∧
    (networkIsDown v6 s = true ↔ ¬ Up a.prev) := by
  intro s a c
  have h : Rel v6 s a := rel_run v6 junk ops
  refine ⟨?_, ?_, ?_⟩
  · intro hsub x hx hor
    have hq : s.subscriber.isNone = false := by rw [h.sub]; cases hq' : a.sub <;> simp_all
    have hc : c = (check v6 junk s o).2 := by simp only [c, step, hq]; rfl
    rw [hc] at hor ⊢
    rcases hor with hf | ⟨h1, h2⟩
    · exact ((check_spec h junk o).2 x hx).1 hf
    · exact ((check_spec h junk o).2 x hx).2 h1 h2
  · intro hsub
    have hq : s.subscriber.isNone = true := by rw [h.sub, hsub]; rfl
    simp only [c, step, hq, if_true]
  · have := valid_iff h.prev (fun hv => (h.seen hv).1)
    unfold networkIsDown
    rw [← this]
    cases defRtValid v6 (s.rts s.curr) <;> simp

/-- the first check after subscribing is reported the same way -/
theorem C69_first_check (v6 : Bool) (junk : DefRt) (ops : List Op) (q : Nat) (o : Obs) :
    let s := run v6 junk State.init ops
    let a := Net.run v6 Net.init ops
    a.sub = none → ¬ Up a.prev → ¬ Up a.last →
    IsReport (step v6 junk s (.subscribe (some q) true o)).2.2 (if (seen v6 o).v4.isSome ∨ (seen v6 o).v6.isSome then some (.up, seen v6 o, nothing) else none) := by
  intro s a hsub hp hl
  have h : Rel v6 s a := rel_run v6 junk ops
  have hq : s.subscriber.isSome = false := by rw [h.sub, hsub]; rfl
  have hc : (step v6 junk s (.subscribe (some q) true o)).2.2 = (check v6 junk { s with subscriber := some q } o).2 := by
    simp only [step, hq]; rfl
  rw [hc]
  have hu : ((seen v6 o).v4.isSome ∨ (seen v6 o).v6.isSome) ↔ Up (seen v6 o) := by
    unfold Up
    cases (seen v6 o).v4 <;> cases (seen v6 o).v6 <;> simp
  have hspec := (check_spec (rel_sub h (some q)) junk o).2
  split
  · rename_i hup
    have hup := hu.1 hup
    have hgt := (os_get (v6 := v6) o (s.rts (!s.curr)) (fun hv => ⟨((h.off hv).1 _).1, ((h.off hv).1 _).2.1⟩)).2.2 hup
    have hv := mt (valid_iff h.prev (fun hv => (h.seen hv).1)).1 hp
    refine (hspec _ (.up hp hup fun h => absurd h hl)).2 ?_ (by intro y hy; simp at hy; rw [← hy]; simp)
    intro c hc
    unfold check at hc
    dsimp only at hc
    rw [if_pos hgt] at hc
    simp only [hv] at hc
    split at hc
    · rename_i hh; exact absurd hh (by simp)
    · split at hc <;> (simp only [Option.some.injEq] at hc; subst hc; simp)
  · rename_i hup
    have hup := mt hu.2 hup
    have hgt := mt (os_get (v6 := v6) o (s.rts (!s.curr)) (fun hv => ⟨((h.off hv).1 _).1, ((h.off hv).1 _).2.1⟩)).2.1 hup
    have hv := mt (valid_iff h.prev (fun hv => (h.seen hv).1)).1 hp
    refine (hspec _ (.stillDown hp hup)).2 ?_ (by simp)
    intro c hc
    unfold check at hc
    dsimp only at hc
    rw [if_neg hgt] at hc
    simp only [hv] at hc
    split at hc
    · rename_i hh; exact absurd hh (by simp)
    · simp at hc

def wan4 : Found := ⟨2, 1, 1, fun i => BitVec.ofNat 8 (i + 1)⟩
def wan6 : Found := ⟨2, 1, 1, fun _ => 0xfe⟩

/-- C69 (violation, with IPv6). The IPv4 route never changes; the IPv6 route disappears once. The code
    reports the switch, and then "the number of default routes has changed" although nothing changed any
    more: the invalidated structure keeps the count of an older observation. -/
theorem C69_spurious_count_event (junk : DefRt) :
    let both : Obs := ⟨some wan4, some wan6⟩
    let only4 : Obs := ⟨some wan4, none⟩
    let ops := [Op.subscribe (some 7) true both, .routeMsg only4]
    let s := run true junk State.init ops
    let a := Net.run true Net.init ops
    Event a only4 none ∧ a.prev = only4 ∧
    (step true junk s (.routeMsg only4)).2.2.map Call.ev = some .cntChanged := by
  intro both only4 ops s a
  have ha : a.prev = only4 := by
    simp [a, ops, Net.run, Net.step, Net.init, Net.observe, seen]
  refine ⟨?_, ha, ?_⟩
  · refine .unchanged ?_ ?_ ?_ ?_
    · rw [ha]; simp [Up, only4]
    · simp [Up, only4]
    · rw [ha]; simp [SameNet, Same, only4]
    · rw [ha]; exact ⟨rfl, rfl⟩
  · rfl

/-! ## C70 -/

/-- C70. There is at most one subscriber; a queue becomes it exactly when there is none (and it is a
    queue and the system call succeeds), otherwise the call fails with EEXIST; only the subscriber can
    unsubscribe, and whatever other queues do it stays subscribed. -/
theorem C70_one_subscriber (v6 : Bool) (junk : DefRt) (ops : List Op) (q : Nat) (o : Obs) :
    let s := run v6 junk State.init ops
    ((step v6 junk s (.subscribe (some q) true o)).2.1 = .ok ↔ s.subscriber = none) ∧
    ((step v6 junk s (.subscribe (some q) true o)).2.1 = .eexist ↔ s.subscriber ≠ none) ∧
    ((step v6 junk s (.unsubscribe (some q))).2.1 = .ok ↔ s.subscriber = some q) ∧
    (s.subscriber = none → (step v6 junk s (.subscribe (some q) true o)).1.subscriber = some q) ∧
    (s.subscriber = some q → (step v6 junk s (.unsubscribe (some q))).1.subscriber = none) ∧
    (step v6 junk s (.subscribe none true o)).2.1 = .einval ∧ (step v6 junk s (.unsubscribe none)).2.1 = .einval ∧
    (s.subscriber = some q → ∀ ops', Op.unsubscribe (some q) ∉ ops' → (run v6 junk s ops').subscriber = some q) := by
  intro s
  have hcheck : ∀ (t : State) o, (check v6 junk t o).1.subscriber = t.subscriber := by
    intro t o
    unfold check
    dsimp only
    split <;> rfl
  refine ⟨?_, ?_, ?_, ?_, ?_, rfl, rfl, ?_⟩
  · cases hs : s.subscriber <;> simp [step, hs]
  · cases hs : s.subscriber <;> simp [step, hs]
  · by_cases hs : s.subscriber = some q <;> simp [step, hs]
  · intro hs; simp [step, hs, hcheck]
  · intro hs; simp [step, hs]
  · intro hs ops'
    generalize s = t at hs
    induction ops' generalizing t with
    | nil => intro _; exact hs
    | cons op ops' ih =>
      intro hn
      simp only [List.mem_cons, not_or] at hn
      refine ih _ ?_ hn.2
      cases op with
      | subscribe q' ok o' =>
        cases q' with
        | none => exact hs
        | some q' => simp [step, hs]
      | unsubscribe q' =>
        cases q' with
        | none => exact hs
        | some q' =>
          have : ¬ (q = q') := by intro h; subst h; exact hn.1 rfl
          simp [step, hs, this]
      | routeMsg o' => simp [step, hs, hcheck]

/-- the scenario of C69/C70: subscribe, lose the route, get another one -/
example :
    let junk : DefRt := initDefRt
    let w : Found := { wan4 with ifIndex := 5 }
    let ops := [Op.subscribe (some 7) true ⟨some wan4, none⟩, .routeMsg ⟨none, none⟩]
    let s := run false junk State.init ops
    (step false junk s (.routeMsg ⟨some w, none⟩)).2.2.map Call.ev = some .upChanged ∧
    (step false junk s (.subscribe (some 8) true ⟨some w, none⟩)).2.1 = .eexist := by
  exact ⟨rfl, rfl⟩

/-! ## C84 -/

/-- C84 (what holds). When the two texts and the separator fit into the buffer, nothing is written
    beyond it and the result is the texts separated by "; ". -/
theorem C84_def_rt_str_partial (t4 t6 : Option (List Char)) (n : BitVec 64)
    (h : (t4.getD []).length + 2 + (t6.getD []).length < n.toNat) (h4 : t4 ≠ some []) (h6 : t6 ≠ some []) :
    (defRtStr t4 t6 n).2 ≤ n.toNat ∧
    (defRtStr t4 t6 n).1 = (match t4, t6 with
      | none, none => none
      | some a, none => some a
      | none, some b => some b
      | some a, some b => some (a ++ [';', ' '] ++ b)) := by
  have hlt := n.isLt
  have snp : ∀ (m : Nat) (t : List Char), t.length < m → snprintf m t = (t, t.length + 1) := by
    intro m t hm
    unfold snprintf
    rw [if_neg (by omega), List.take_of_length_le (by omega), Nat.min_eq_left (by omega)]
  cases t4 with
  | none =>
    cases t6 with
    | none => simp at h; simp [defRtStr]; omega
    | some b =>
      simp at h
      have hb : b ≠ [] := fun e => h6 (by rw [e])
      have hbl : b.length > 0 := by cases b <;> simp_all
      simp [defRtStr, snp n.toNat b (by omega), hbl]
      omega
  | some a =>
    have ha : a ≠ [] := fun e => h4 (by rw [e])
    have hal : a.length > 0 := by cases a <;> simp_all
    cases t6 with
    | none =>
      simp at h
      simp [defRtStr, snp n.toNat a (by omega), hal]
      omega
    | some b =>
      simp at h
      have hsub : (n - BitVec.ofNat 64 (a.length + 2)).toNat = n.toNat - (a.length + 2) := by
        rw [BitVec.toNat_sub, BitVec.toNat_ofNat]
        omega
      simp [defRtStr, snp n.toNat a (by omega), hal, hsub, snp (n.toNat - (a.length + 2)) b (by omega)]
      omega

/-- C84 (violation). For every buffer size from 2 on there are texts for which bytes beyond the buffer
    are written; with an IPv4 text that fills the buffer, the IPv6 text is then written without bound. -/
theorem C84_def_rt_str_overflow (n : BitVec 64) (h2 : 2 ≤ n.toNat) (hn : n.toNat < 2 ^ 62) (extra : Nat) (he : extra < 2 ^ 62) :
    ∃ t4 t6 : List Char, n.toNat + extra < (defRtStr (some t4) (some t6) n).2 := by
  have hlt := n.isLt
  refine ⟨List.replicate (n.toNat - 1) 'a', List.replicate (extra + 1) 'b', ?_⟩
  have hs : snprintf n.toNat (List.replicate (n.toNat - 1) 'a') = (List.replicate (n.toNat - 1) 'a', n.toNat) := by
    unfold snprintf
    rw [if_neg (by omega)]
    simp
    omega
  have hl : (List.replicate (n.toNat - 1) 'a').length > 0 := by simp; omega
  have hsub : (n - BitVec.ofNat 64 (n.toNat - 1 + 2)).toNat = 2 ^ 64 - 1 := by
    rw [BitVec.toNat_sub, BitVec.toNat_ofNat]
    omega
  have hs2 : snprintf (2 ^ 64 - 1) (List.replicate (extra + 1) 'b') = (List.replicate (extra + 1) 'b', extra + 2) := by
    unfold snprintf
    rw [if_neg (by omega)]
    rw [List.take_of_length_le (by simp; omega), Nat.min_eq_left (by simp; omega)]
    simp
  have hbl : (List.replicate (n.toNat - 1) 'a' ++ [';', ' ']).length = n.toNat - 1 + 2 := by simp
  simp only [defRtStr, hs, hl, if_true, hbl, hsub, hs2]
  rw [if_neg (by omega)]
  omega

/-- C84 (what holds, truncation). With at most one of the two texts nothing is written beyond a buffer of any size from 1 on,
    and the result is as much of the text as fits before the terminating 0. -/
theorem C84_truncated_partial (t : List Char) (n : BitVec 64) (h1 : 1 ≤ n.toNat) :
    (defRtStr none none n).2 ≤ n.toNat ∧ (defRtStr none none n).1 = none ∧
    (defRtStr (some t) none n).2 ≤ n.toNat ∧ (defRtStr (some t) none n).2 ≤ t.length + 1 ∧
    ((defRtStr (some t) none n).1 = if t = [] ∨ n.toNat = 1 then none else some (t.take (n.toNat - 1))) ∧
    (defRtStr none (some t) n).2 ≤ n.toNat ∧
    ((defRtStr none (some t) n).1 = if t = [] ∨ n.toNat = 1 then none else some (t.take (n.toNat - 1))) := by
  have hm : ∀ k : Nat, min t.length (n.toNat - 1) + 1 ≤ n.toNat := fun _ => by omega
  have hlen : (t.take (n.toNat - 1)).length > 0 ↔ ¬ (t = [] ∨ n.toNat = 1) := by
    rw [List.length_take, ← List.length_eq_zero_iff]; omega
  have hsub : (n - BitVec.ofNat 64 0).toNat = n.toNat := by simp
  have hn : n.toNat ≠ 0 := by omega
  have hif : (if (t.take (n.toNat - 1)).length > 0 then some (t.take (n.toNat - 1)) else none) =
      if t = [] ∨ n.toNat = 1 then none else some (t.take (n.toNat - 1)) := by
    by_cases h : t = [] ∨ n.toNat = 1
    · rw [if_pos h, if_neg (fun hh => hlen.1 hh h)]
    · rw [if_neg h, if_pos (hlen.2 h)]
  refine ⟨by simp [defRtStr]; omega, by simp [defRtStr], ?_, ?_, ?_, ?_, ?_⟩
  · simp only [defRtStr, snprintf, if_neg hn]; omega
  · simp only [defRtStr, snprintf, if_neg hn]; omega
  · simp only [defRtStr, snprintf, if_neg hn]; exact hif
  · simp only [defRtStr, List.length_nil, gt_iff_lt, Nat.lt_irrefl, if_false, hsub, snprintf, if_neg hn]
    rw [if_neg (by omega)]; omega
  · simp only [defRtStr, List.length_nil, gt_iff_lt, Nat.lt_irrefl, if_false, hsub, snprintf, if_neg hn, List.nil_append]
    exact hif

/-- a text of six characters in a buffer of four -/
example : defRtStr (some "abcdef".toList) none 4 = (some "abc".toList, 4) := by decide +kernel

/-! ## C85 -/

/-- C85 (what holds). If every entry carries a metric (below the maximum), the chosen one is the first
    with the least metric; the number of default routes is the number of entries. -/
theorem C85_select_partial (es : List Entry) (h : ∀ e ∈ es, ∃ p, e.pri = some p ∧ p < 0xffffffff#32) :
    (select es).cnt = es.length ∧
    (es = [] → (select es).best = none) ∧
    (es ≠ [] → ∃ l r e p, es = l ++ e :: r ∧ (select es).best = some e ∧ e.pri = some p ∧
      (∀ e' ∈ l, ∀ p', e'.pri = some p' → p < p') ∧ (∀ e' ∈ r, ∀ p', e'.pri = some p' → p ≤ p')) := by
  suffices H : (select es).cnt = es.length ∧
      ((es = [] ∧ (select es).best = none ∧ (select es).min = 0xffffffff#32) ∨
       (∃ l r e p, es = l ++ e :: r ∧ (select es).best = some e ∧ (select es).min = p ∧ e.pri = some p ∧
        (∀ e' ∈ l, ∀ p', e'.pri = some p' → p < p') ∧ (∀ e' ∈ r, ∀ p', e'.pri = some p' → p ≤ p'))) by
    obtain ⟨h1, h2⟩ := H
    refine ⟨h1, ?_, ?_⟩
    · intro he
      rcases h2 with ⟨_, h, _⟩ | ⟨l, r, e, p, heq, _⟩
      · exact h
      · rw [he] at heq; simp at heq
    · intro he
      rcases h2 with ⟨h, _⟩ | ⟨l, r, e, p, a1, a2, _, a4, a5, a6⟩
      · exact absurd h he
      · exact ⟨l, r, e, p, a1, a2, a4, a5, a6⟩
  -- induction from the right, written as extension of a prefix
  have hind : ∀ (t pre : List Entry), (∀ e ∈ t, ∃ p, e.pri = some p ∧ p < 0xffffffff#32) →
      ((select pre).cnt = pre.length ∧
      ((pre = [] ∧ (select pre).best = none ∧ (select pre).min = 0xffffffff#32) ∨
       (∃ l r e p, pre = l ++ e :: r ∧ (select pre).best = some e ∧ (select pre).min = p ∧ e.pri = some p ∧
        (∀ e' ∈ l, ∀ p', e'.pri = some p' → p < p') ∧ (∀ e' ∈ r, ∀ p', e'.pri = some p' → p ≤ p')))) →
      ((select (pre ++ t)).cnt = (pre ++ t).length ∧
      (((pre ++ t) = [] ∧ (select (pre ++ t)).best = none ∧ (select (pre ++ t)).min = 0xffffffff#32) ∨
       (∃ l r e p, (pre ++ t) = l ++ e :: r ∧ (select (pre ++ t)).best = some e ∧ (select (pre ++ t)).min = p ∧ e.pri = some p ∧
        (∀ e' ∈ l, ∀ p', e'.pri = some p' → p < p') ∧ (∀ e' ∈ r, ∀ p', e'.pri = some p' → p ≤ p')))) := by
    intro t
    induction t with
    | nil => intro pre _ hp; simpa using hp
    | cons x t ih =>
      intro pre ht hp
      have hcat : pre ++ x :: t = (pre ++ [x]) ++ t := by simp
      rw [hcat]
      refine ih (pre ++ [x]) (fun e he => ht e (List.mem_cons_of_mem _ he)) ?_
      obtain ⟨px, hpx, hlt⟩ := ht x (List.mem_cons_self ..)
      have hsel : select (pre ++ [x]) = selStep (select pre) x := by simp [select, List.foldl_append]
      rw [hsel]
      obtain ⟨hc, hcase⟩ := hp
      rcases hcase with ⟨e0, b0, m0⟩ | ⟨l, r, e, p, e1, b1, m1, p1, hl, hr⟩
      · subst e0
        have hst : selStep (select []) x = ⟨px, some x, 1⟩ := by
          simp only [selStep, hpx, m0, if_pos hlt]; rfl
        rw [hst]
        exact ⟨rfl, .inr ⟨[], [], x, px, rfl, rfl, rfl, hpx, by simp, by simp⟩⟩
      · by_cases hlt' : px < (select pre).min
        · have hst : selStep (select pre) x = ⟨px, some x, (select pre).cnt + 1⟩ := by
            simp only [selStep, hpx, if_pos hlt']
          rw [hst]
          refine ⟨by simp [hc], .inr ⟨pre, [], x, px, rfl, rfl, rfl, hpx, ?_, by simp⟩⟩
          intro e' he' p' hp'
          rw [m1] at hlt'
          rw [e1] at he'
          simp only [List.mem_append, List.mem_cons] at he'
          rcases he' with he' | he' | he'
          · exact BitVec.lt_trans hlt' (hl e' he' p' hp')
          · subst he'; rw [p1] at hp'; cases hp'; exact hlt'
          · have := hr e' he' p' hp'
            simp only [BitVec.lt_def, BitVec.le_def] at *; omega
        · have hst : selStep (select pre) x = ⟨(select pre).min, (select pre).best, (select pre).cnt + 1⟩ := by
            simp only [selStep, hpx, if_neg hlt']
          rw [hst]
          refine ⟨by simp [hc], .inr ⟨l, r ++ [x], e, p, by simp [e1], b1, m1, p1, hl, ?_⟩⟩
          intro e' he' p' hp'
          simp only [List.mem_append, List.mem_singleton] at he'
          rcases he' with he' | he'
          · exact hr e' he' p' hp'
          · subst he'; rw [hpx] at hp'; cases hp'; rw [m1] at hlt'; exact BitVec.not_lt.mp hlt'
  have := hind es [] h ⟨rfl, .inl ⟨rfl, rfl, rfl⟩⟩
  simpa using this

/-- the hypothesis of `C85_select_partial` is met by a dump with three routes; the second is chosen -/
example : (select [⟨some 100, 2, none⟩, ⟨some 50, 3, none⟩, ⟨some 50, 4, none⟩]).best = some ⟨some 50, 3, none⟩ := by
  decide +kernel

/-- C85 (what holds). If no entry carries a metric the first one is chosen. -/
theorem C85_first_without_metric_partial (e : Entry) (es : List Entry) (h : ∀ e' ∈ e :: es, e'.pri = none) :
    (select (e :: es)).best = some e ∧ (select (e :: es)).cnt = es.length + 1 := by
  have H : ∀ (l : List Entry) (s : Sel), (∀ e' ∈ l, e'.pri = none) → s.best = some e →
      (l.foldl selStep s).best = some e ∧ (l.foldl selStep s).cnt = s.cnt + l.length := by
    intro l
    induction l with
    | nil => intro s _ hb; exact ⟨hb, rfl⟩
    | cons x l ih =>
      intro s hl hb
      have hx : selStep s x = { s with cnt := s.cnt + 1 } := by
        simp [selStep, hl x (List.mem_cons_self ..), hb]
      obtain ⟨h1, h2⟩ := ih (selStep s x) (fun e' he' => hl e' (List.mem_cons_of_mem _ he')) (by rw [hx]; exact hb)
      refine ⟨h1, ?_⟩
      rw [List.foldl_cons, h2, hx, List.length_cons]
      simp only
      omega
  have h0 : selStep ⟨0xffffffff#32, none, 0⟩ e = ⟨0xffffffff#32, some e, 1⟩ := by
    simp [selStep, h e (List.mem_cons_self ..)]
  obtain ⟨h1, h2⟩ := H es ⟨0xffffffff#32, some e, 1⟩ (fun e' he' => h e' (List.mem_cons_of_mem _ he')) rfl
  unfold select
  rw [List.foldl_cons, h0]
  exact ⟨h1, by rw [h2]; simp only; omega⟩

example : ∀ e' ∈ [⟨none, 4, none⟩, (⟨none, 2, none⟩ : Entry)], e'.pri = none := by simp

/-- C85 (violation). An entry without a metric attribute has metric 0, the best, for the kernel. It is
    passed over for any later entry with a metric. -/
theorem C85_default_metric_loses (e e' : Entry) (p : BitVec 32) (he : e.pri = none) (he' : e'.pri = some p)
    (hp : p < 0xffffffff#32) : (select [e, e']).best = some e' := by
  simp [select, selStep, he, he', hp]

/-- concrete instance: the route via interface 1 (metric 0) loses to the one via interface 2 (metric 600) -/
example : (select [⟨none, 1, none⟩, ⟨some 600, 2, none⟩]).best.map Entry.oif = some 2 := by decide +kernel

/-- C85 (violation). An entry whose metric is the largest 32-bit number is never chosen, even when it is
    the only default route: the network is then reported down. -/
theorem C85_max_metric_ignored (e : Entry) (he : e.pri = some 0xffffffff#32) :
    (select [e]).best = none ∧ (select [e]).cnt = 1 := by
  simp [select, selStep, he]

end Verif.Route
