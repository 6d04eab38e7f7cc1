import Verif.Netlink
import Verif.NetifsProps
/-!
  C147: the default route found is the one in the kernel's dump.
  C148: no datagram makes the parser read or write outside the data it received.
  C149: the interface cache holds what the kernel's link dump says.
-/
namespace Verif.Netlink
open Verif.Route (Entry Sel select selStep)

/-! ### Specification: the messages the kernel sends, as bytes (rtnetlink(7), netlink(7)) -/
namespace Spec

def le16 (n : Nat) : List Byte := [BitVec.ofNat 8 n, BitVec.ofNat 8 (n / 256)]
def le32 (n : Nat) : List Byte := le16 n ++ le16 (n / 65536)
/-- zero bytes up to a multiple of four -/
def pad (n : Nat) : List Byte := List.replicate (align4 n - n) 0

structure Attr where
  type : Nat
  data : List Byte

def Attr.bytes (a : Attr) : List Byte :=
  le16 (4 + a.data.length) ++ le16 a.type ++ a.data ++ pad a.data.length

/-- lengths and types fit their 16-bit fields -/
def Attr.Fits (a : Attr) : Prop := a.type < 65536 ∧ 4 + a.data.length < 65536

/-- the fields of the header that are not looked at -/
structure Hdr where
  flags : Nat
  seq : Nat
  pid : Nat

def message (h : Hdr) (type : Nat) (body : List Byte) : List Byte :=
  le32 (16 + body.length) ++ le16 type ++ le16 h.flags ++ le32 h.seq ++ le32 h.pid ++ body ++ pad body.length

structure Rtm where
  family : Byte
  dstLen : Byte
  srcLen : Byte
  tos : Byte
  table : Byte
  protocol : Byte
  scope : Byte
  type : Byte
  flags : Nat
  attrs : List Attr

def Rtm.body (r : Rtm) : List Byte :=
  [r.family, r.dstLen, r.srcLen, r.tos, r.table, r.protocol, r.scope, r.type] ++ le32 r.flags ++
    r.attrs.flatMap Attr.bytes

/-- a message of a dump: a route, or one of another type -/
inductive Msg where
  | route (h : Hdr) (r : Rtm)
  | other (h : Hdr) (type : Nat) (body : List Byte)

def Msg.bytes : Msg → List Byte
  | .route h r => message h 24 r.body
  | .other h t b => message h t b

def datagram (ms : List Msg) : List Byte := ms.flatMap Msg.bytes

/-- the value of a little-endian 32-bit number -/
def num (d : List Byte) : Nat :=
  (d.getD 0 0).toNat + 256 * (d.getD 1 0).toNat + 65536 * ((d.getD 2 0).toNat + 256 * (d.getD 3 0).toNat)

/-- the first attribute of a type -/
def attr (as : List Attr) (t : Nat) : Option (List Byte) := (as.find? fun a => a.type = t).map Attr.data

def Msg.Fits : Msg → Prop
  | .route _ r => (∀ a ∈ r.attrs, a.Fits) ∧
      (∀ a ∈ r.attrs, a.type = 4 ∨ a.type = 6 → 4 ≤ a.data.length)
  | .other _ t _ => t < 65536 ∧ t ≠ 2 ∧ t ≠ 3 ∧ t ≠ 24

/-- every route of the dump is of the family asked for -/
def OnlyFamily (af : Nat) (ms : List Msg) : Prop := ∀ h r, Msg.route h r ∈ ms → r.family = BitVec.ofNat 8 af

/-- the default routes of family `af` in a dump: unicast, destination length 0, with an output interface -/
def defaults (af : Nat) (ms : List Msg) : List Entry :=
  ms.filterMap fun
    | .other .. => none
    | .route _ r =>
      if r.type = 1 ∧ r.family = BitVec.ofNat 8 af ∧ r.dstLen = 0 then
        (attr r.attrs 4).map fun oif =>
          ⟨(attr r.attrs 6).map fun p => BitVec.ofNat 32 (num p), num oif, attr r.attrs 5⟩
      else none

/-- what is stored: family, interface index, number of default routes, gateway -/
structure Stored where
  family : Nat
  oif : Nat
  cnt : Nat
  gw : Option (List Byte)
  deriving DecidableEq, Repr

/-- what the function must store: the route chosen among the entries (the choice itself is C85), the
    number of default routes (at most 2) and the gateway -/
def result (af : Nat) (es : List Entry) : Option Stored :=
  (select es).best.map fun e => ⟨af, e.oif, min es.length 2, e.gw⟩

end Spec

/-! ### Helpers -/

/-- the default routes with an output interface: unicast, of either family, destination length 0 -/
def Spec.Msg.entry : Spec.Msg → Option Entry
  | .other .. => none
  | .route _ r =>
    if r.type = 1 ∧ (r.family = 2 ∨ r.family = 10) ∧ r.dstLen = 0 then
      (Spec.attr r.attrs 4).map fun oif =>
        ⟨(Spec.attr r.attrs 6).map fun p => BitVec.ofNat 32 (Spec.num p), Spec.num oif, attr r.attrs 5⟩
    else none



/-- the bytes `l` are at offset `o` -/
def Holds (b : Mem) (o : Nat) (l : List Byte) : Prop := ∀ i (h : i < l.length), b (o + i) = l[i]

theorem Holds.append {b : Mem} {o : Nat} {x y : List Byte} :
    Holds b o (x ++ y) ↔ Holds b o x ∧ Holds b (o + x.length) y := by
  constructor
  · intro h
    constructor
    · intro i hi
      have := h i (by simp; omega)
      rw [List.getElem_append_left hi] at this
      exact this
    · intro i hi
      have := h (x.length + i) (by simp; omega)
      rw [List.getElem_append_right (by omega)] at this
      simp only [Nat.add_sub_cancel_left] at this
      rw [← Nat.add_assoc] at this
      exact this
  · intro ⟨h1, h2⟩ i hi
    by_cases hx : i < x.length
    · rw [List.getElem_append_left hx]; exact h1 i hx
    · rw [List.getElem_append_right (by omega)]
      have := h2 (i - x.length) (by simp at hi; omega)
      rw [show o + x.length + (i - x.length) = o + i by omega] at this
      exact this

theorem Holds.cons {b : Mem} {o : Nat} {x : Byte} {y : List Byte} :
    Holds b o (x :: y) ↔ b o = x ∧ Holds b (o + 1) y := by
  have := @Holds.append b o [x] y
  simp only [List.singleton_append, List.length_singleton] at this
  rw [this]
  constructor
  · intro ⟨h1, h2⟩; exact ⟨by simpa using h1 0 (by simp), h2⟩
  · intro ⟨h1, h2⟩
    refine ⟨fun i hi => ?_, h2⟩
    have : i = 0 := by simpa using hi
    subst this; simpa using h1

theorem Holds.nil {b : Mem} {o : Nat} : Holds b o [] := fun i h => absurd h (by simp)

theorem u16_holds {b : Mem} {o n : Nat} (h : Holds b o (Spec.le16 n)) : u16 b o = n % 65536 := by
  simp only [Spec.le16, Holds.cons] at h
  simp only [u16, h.1, h.2.1, BitVec.toNat_ofNat]
  omega

theorem u32_holds {b : Mem} {o n : Nat} (h : Holds b o (Spec.le32 n)) : u32 b o = n % 4294967296 := by
  simp only [Spec.le32, Holds.append] at h
  have h1 := u16_holds h.1
  have h2 := u16_holds h.2
  simp only [Spec.le16, List.length_cons, List.length_nil] at h2
  simp only [u32, h1, h2]
  omega

theorem num_holds {b : Mem} {o : Nat} {d : List Byte} (hd : 4 ≤ d.length) (h : Holds b o d) :
    u32 b o = Spec.num d := by
  match d, hd with
  | x :: y :: z :: w :: r, _ =>
    simp only [Holds.cons] at h
    obtain ⟨h1, h2, h3, h4, _⟩ := h
    simp [u32, u16, Spec.num, h1, h2, h3, h4, Nat.add_assoc]

theorem align4_ge (n : Nat) : n ≤ align4 n := by unfold align4; omega
theorem align4_mod (n : Nat) : align4 n % 4 = 0 := by unfold align4; omega
theorem align4_lt (n : Nat) : align4 n < n + 4 := by unfold align4; omega
theorem align4_id {n : Nat} (h : n % 4 = 0) : align4 n = n := by unfold align4; omega
theorem align4_add (k n : Nat) (h : k % 4 = 0) : align4 (k + n) = k + align4 n := by unfold align4; omega

theorem attr_len (a : Spec.Attr) : a.bytes.length = 4 + align4 a.data.length := by
  have := align4_ge a.data.length
  simp [Spec.Attr.bytes, Spec.le16, Spec.pad]; omega

theorem message_len (h : Spec.Hdr) (t : Nat) (b : List Byte) :
    (Spec.message h t b).length = 16 + align4 b.length := by
  have := align4_ge b.length
  simp [Spec.message, Spec.le16, Spec.le32, Spec.pad]; omega

/-! ### Attributes -/

/-- where the first attribute of type `t` starts -/
def firstOff : List Spec.Attr → Nat → Nat → Option Nat
  | [], _, _ => none
  | a :: as, off, t => if a.type = t then some off else firstOff as (off + a.bytes.length) t

theorem firstOff_spec {b : Mem} {as : List Spec.Attr} : ∀ {off : Nat} {t : Nat},
    Holds b off (as.flatMap Spec.Attr.bytes) →
    (firstOff as off t = none → Spec.attr as t = none) ∧
    (∀ o, firstOff as off t = some o → off ≤ o ∧ ∃ a, a ∈ as ∧ a.type = t ∧ Spec.attr as t = some a.data ∧ Holds b o a.bytes) := by
  induction as with
  | nil => intro off t _; simp [firstOff, Spec.attr]
  | cons a as ih =>
    intro off t h
    simp only [List.flatMap_cons, Holds.append] at h
    obtain ⟨h1, h2⟩ := h
    have ih := ih (t := t) h2
    simp only [firstOff]
    by_cases e : a.type = t
    · simp only [e, if_true]
      refine ⟨by simp, ?_⟩
      intro o ho
      obtain rfl : off = o := by simpa using ho
      exact ⟨Nat.le_refl _, a, by simp, e, by simp [Spec.attr, e], h1⟩
    · simp only [if_neg e]
      have e2 : Spec.attr (a :: as) t = Spec.attr as t := by simp [Spec.attr, e]
      rw [e2]
      refine ⟨ih.1, ?_⟩
      intro o ho
      obtain ⟨g1, a', g2, g3, g4, g5⟩ := ih.2 o ho
      exact ⟨by omega, a', by simp [g2], g3, g4, g5⟩

theorem parse_enc (b : Mem) (cnt : Nat) : ∀ (as : List Spec.Attr) (k off : Nat) (s : PSt),
    Holds b off (as.flatMap Spec.Attr.bytes) → (∀ a ∈ as, a.Fits) → (as.flatMap Spec.Attr.bytes).length < k →
    ∀ t, (parseLoop b cnt k off ((as.flatMap Spec.Attr.bytes).length : Nat) s).rtas t =
      match s.rtas t with
      | some o => some o
      | none => if t < cnt then firstOff as off t else none := by
  intro as
  induction as with
  | nil =>
    intro k off s _ _ hk t
    match k, hk with
    | k + 1, _ =>
      simp [parseLoop, firstOff]
      cases s.rtas t <;> simp
  | cons a as ih =>
    intro k off s hb hf hk t
    simp only [List.flatMap_cons, Holds.append] at hb
    obtain ⟨h1, h2⟩ := hb
    obtain ⟨f1, f2⟩ := hf a (by simp)
    have hl := attr_len a
    have hrl : u16 b off = 4 + a.data.length := by
      have : Holds b off (Spec.le16 (4 + a.data.length)) := by
        simp only [Spec.Attr.bytes, Holds.append] at h1; exact h1.1.1.1
      rw [u16_holds this]; omega
    have hty : u16 b (off + 2) = a.type := by
      have : Holds b (off + 2) (Spec.le16 a.type) := by
        simp only [Spec.Attr.bytes, Holds.append] at h1; exact h1.1.1.2
      rw [u16_holds this]; omega
    match k, hk with
    | k + 1, hk =>
      simp only [List.flatMap_cons, List.length_append] at hk ⊢
      have ha := align4_ge a.data.length
      unfold parseLoop
      rw [if_neg (by omega)]
      simp only [hrl]
      rw [if_neg (by omega)]
      have e1 : align4 (4 + a.data.length) = a.bytes.length := by rw [hl, align4_add _ _ (by omega)]
      rw [e1]
      have e2 : (((a.bytes.length + (as.flatMap Spec.Attr.bytes).length : Nat) : Int) - (a.bytes.length : Nat)) =
          ((as.flatMap Spec.Attr.bytes).length : Nat) := by omega
      rw [e2, ih k _ _ h2 (fun x hx => hf x (by simp [hx])) (by omega) t]
      simp only [hty, firstOff]
      by_cases c : a.type < cnt
      · cases hs : s.rtas a.type with
        | none =>
          simp only [c, Option.isNone_none, and_self, if_true]
          by_cases et : t = a.type
          · subst et; simp [hs, c]
          · have et' : ¬ a.type = t := fun h => et h.symm
            simp only [if_neg et, if_neg et']
        | some o =>
          simp only [c, Option.isNone_some, and_false, Bool.false_eq_true, if_false]
          by_cases et : a.type = t
          · subst et; simp [hs]
          · simp only [if_neg et]
      · simp only [c, false_and, if_false]
        cases hs : s.rtas t with
        | some o => simp
        | none =>
          by_cases et : a.type = t
          · subst et; simp [c]
          · simp only [if_neg et]

/-! ### Routes -/

/-- the local variables agree with the abstract choice, whatever is in the buffer -/
structure WRel (g : G) (s : Sel) : Prop where
  cnt : g.cnt = s.cnt
  min : g.min = s.min.toNat
  none_ : s.best = none → g.oif = none ∧ g.gw = none
  some_ : ∀ e, s.best = some e → g.oif.isSome

/-- and the two pointers designate the chosen route's attributes in the buffer `b` -/
structure Rel (b : Mem) (g : G) (s : Sel) : Prop extends WRel g s where
  val : ∀ e, s.best = some e → ∃ o, g.oif = some o ∧ 28 ≤ o ∧ u32 b (o + 4) = e.oif ∧
    match e.gw with
    | none => g.gw = none
    | some d => ∃ q, g.gw = some q ∧ 28 ≤ q ∧ u16 b q = 4 + d.length ∧ Holds b (q + 4) d

theorem WRel.rel {b : Mem} {g : G} {s : Sel} (h : WRel g s) (hn : s.best = none) : Rel b g s :=
  ⟨h, fun e he => by simp [hn] at he⟩

/-- the entry beats everything seen so far -/
def Beats (e : Option Entry) (s : Sel) : Prop := ∃ x p, e = some x ∧ x.pri = some p ∧ p < s.min

def selMsg (s : Sel) (e : Option Entry) : Sel := match e with | none => s | some e => selStep s e

theorem log_w {g : G} {s : Sel} (l : List Acc) (h : WRel g s) : WRel { g with log := l } s := ⟨h.cnt, h.min, h.none_, h.some_⟩
theorem out_w {g : G} {s : Sel} (l : List Acc) (o : List (Acc × Nat)) (h : WRel g s) : WRel { g with log := l, out := o } s :=
  ⟨h.cnt, h.min, h.none_, h.some_⟩
theorem out_r {b : Mem} {g : G} {s : Sel} (l : List Acc) (o : List (Acc × Nat)) (h : Rel b g s) :
    Rel b { g with log := l, out := o } s := ⟨out_w l o h.toWRel, h.val⟩
theorem log_r {b : Mem} {g : G} {s : Sel} (l : List Acc) (h : Rel b g s) : Rel b { g with log := l } s := ⟨log_w l h.toWRel, h.val⟩

theorem routeMsg_enc {b : Mem} {h : Spec.Hdr} {r : Spec.Rtm} {off : Nat} {g : G} {s : Sel}
    (hb : Holds b off (Spec.Msg.route h r).bytes) (hf : (Spec.Msg.route h r).Fits) (hr : WRel g s) :
    WRel (routeMsg b off (16 + r.body.length) g) (selMsg s (Spec.Msg.route h r).entry) ∧
    (Rel b g s ∨ Beats (Spec.Msg.route h r).entry s →
      Rel b (routeMsg b off (16 + r.body.length) g) (selMsg s (Spec.Msg.route h r).entry)) := by
  have nb : ¬ Beats none s := fun ⟨x, p, h, _⟩ => by simp at h
  have hb' : Holds b (off + 16) r.body := by
    simp only [Spec.Msg.bytes, Spec.message, Holds.append] at hb
    have := hb.1.2
    simpa [Spec.le32, Spec.le16] using this
  simp only [Spec.Rtm.body, Holds.append] at hb'
  obtain ⟨⟨h1, _⟩, h2⟩ := hb'
  simp only [Holds.cons] at h1
  obtain ⟨g1, g2, _, _, _, _, _, g8, _⟩ := h1
  have h2 : Holds b (off + 28) (r.attrs.flatMap Spec.Attr.bytes) := by
    simpa [Spec.le32, Spec.le16, Nat.add_assoc] using h2
  have g8 : b (off + 23) = r.type := by simpa [Nat.add_assoc] using g8
  have g2 : b (off + 17) = r.dstLen := by simpa [Nat.add_assoc] using g2
  have tn : ∀ (x y : Byte), x.toNat = y.toNat ↔ x = y := fun x y => ⟨BitVec.eq_of_toNat_eq, fun h => by rw [h]⟩
  have t1 : ∀ x : Byte, x.toNat = 1 ↔ x = 1 := fun x => tn x 1
  have t2 : ∀ x : Byte, x.toNat = 2 ↔ x = 2 := fun x => tn x 2
  have t10 : ∀ x : Byte, x.toNat = 10 ↔ x = 10 := fun x => tn x 10
  have t0 : ∀ x : Byte, x.toNat = 0 ↔ x = 0 := fun x => tn x 0
  simp only [Spec.Msg.entry]
  unfold routeMsg
  simp only [g1, g2, g8, ne_eq, t1, t2, t10, t0]
  by_cases c1 : r.type = 1
  case neg =>
    simp only [c1, not_false_eq_true, if_true, false_and, if_false]
    exact ⟨log_w _ hr, fun h => log_r _ (h.resolve_right nb)⟩
  by_cases c2 : r.family = 2 ∨ r.family = 10
  case neg =>
    have c2' : ¬ r.family = 2 ∧ ¬ r.family = 10 := ⟨fun h => c2 (.inl h), fun h => c2 (.inr h)⟩
    simp only [c1, c2, c2', not_true_eq_false, if_false, not_false_eq_true, and_self, if_true, true_and, false_and]
    exact ⟨log_w _ hr, fun h => log_r _ (h.resolve_right nb)⟩
  have c2' : ¬ (¬ r.family = 2 ∧ ¬ r.family = 10) := fun h => c2.elim h.1 h.2
  by_cases c3 : r.dstLen = 0
  case neg =>
    simp only [c1, c2, c3, c2', not_true_eq_false, if_false, not_false_eq_true, and_self, if_true, true_and]
    exact ⟨log_w _ hr, fun h => log_r _ (h.resolve_right nb)⟩
  simp only [c1, c2, c3, c2', not_true_eq_false, if_false, and_self, if_true]
  have hlen : (((16 + r.body.length : Nat) : Int) - 28) = ((r.attrs.flatMap Spec.Attr.bytes).length : Nat) := by
    simp only [Spec.Rtm.body, Spec.le32, Spec.le16, List.length_append, List.length_cons, List.length_nil]; omega
  rw [hlen]
  have hp := fun t => parse_enc b RTA_CNT r.attrs ((r.attrs.flatMap Spec.Attr.bytes).length + 1) (off + 28)
    ⟨fun _ => none, []⟩ h2 hf.1 (by omega) t
  have hp : ∀ t, t < 31 → (parseRtattrs b (off + 28) ((r.attrs.flatMap Spec.Attr.bytes).length : Nat) RTA_CNT).rtas t =
      firstOff r.attrs (off + 28) t := by
    intro t ht
    have := hp t
    simp only [parseRtattrs, Int.toNat_natCast]
    rw [this]
    have e : RTA_CNT = 31 := rfl
    simp only [e, if_pos ht]
  have hp4 := hp RTA_OIF (by decide)
  have hp5 := hp RTA_GATEWAY (by decide)
  have hp6 := hp RTA_PRIORITY (by decide)
  have f4 := firstOff_spec (t := RTA_OIF) h2
  have f5 := firstOff_spec (t := RTA_GATEWAY) h2
  have f6 := firstOff_spec (t := RTA_PRIORITY) h2
  simp only [hp4, hp5, hp6]
  cases h4 : firstOff r.attrs (off + 28) RTA_OIF with
  | none =>
    have n4 : Spec.attr r.attrs 4 = none := f4.1 h4
    simp only [n4, Option.map_none]
    exact ⟨log_w _ hr, fun h => log_r _ (h.resolve_right nb)⟩
  | some o =>
    obtain ⟨o1, a4, o2, o3, o4, o5⟩ := f4.2 o h4
    have n4 : Spec.attr r.attrs 4 = some a4.data := o4
    simp only [n4, Option.map_some]
    have d4 : Holds b (o + 4) a4.data := by
      simp only [Spec.Attr.bytes, Holds.append] at o5
      simpa [Spec.le16] using o5.1.2
    have v4 : u32 b (o + 4) = Spec.num a4.data := num_holds (hf.2 a4 o2 (.inl o3)) d4
    -- the gateway
    have hgw : match Spec.attr r.attrs 5 with
        | none => firstOff r.attrs (off + 28) RTA_GATEWAY = none
        | some d => ∃ q, firstOff r.attrs (off + 28) RTA_GATEWAY = some q ∧ 28 ≤ q ∧ u16 b q = 4 + d.length ∧ Holds b (q + 4) d := by
      cases h5 : firstOff r.attrs (off + 28) RTA_GATEWAY with
      | none => rw [show Spec.attr r.attrs 5 = none from f5.1 h5]
      | some q =>
        obtain ⟨q1, a5, q2, q3, q4, q5⟩ := f5.2 q h5
        rw [show Spec.attr r.attrs 5 = some a5.data from q4]
        simp only [Spec.Attr.bytes, Holds.append] at q5
        refine ⟨q, rfl, by omega, ?_, by simpa [Spec.le16] using q5.1.2⟩
        rw [u16_holds q5.1.1.1]
        have := (hf.1 a5 q2).2
        omega
    cases h6 : firstOff r.attrs (off + 28) RTA_PRIORITY with
    | none =>
      have n6 : Spec.attr r.attrs 6 = none := f6.1 h6
      simp only [n6, Option.map_none, selMsg, selStep]
      by_cases cb : s.best = none
      · obtain ⟨b1, b2⟩ := hr.none_ cb
        simp only [b1, b2, cb, Option.isNone_none, and_self, if_true]
        refine (fun hw => ⟨hw, fun _ => ⟨hw, ?_⟩⟩) ⟨by simp [hr.cnt], hr.min, by simp, by simp⟩
        intro e he
        simp only [Option.some.injEq] at he
        subst he
        exact ⟨o, rfl, by omega, v4, hgw⟩
      · obtain ⟨e0, he0⟩ := Option.ne_none_iff_exists'.1 cb
        obtain ⟨o0, k1⟩ := Option.isSome_iff_exists.1 (hr.some_ e0 he0)
        simp only [k1, he0, Option.isNone_some, Bool.false_eq_true, false_and, if_false]
        refine (fun hw => ⟨hw, fun h => ⟨hw, ?_⟩⟩) ⟨by simp [hr.cnt], hr.min, by simp, by simp⟩
        rcases h with h | ⟨x, p, e1, e2, _⟩
        · intro e he
          have : some e0 = some e := by simpa using he
          simpa [k1] using h.val e (by rw [he0]; exact this)
        · simp only [Option.some.injEq] at e1; subst e1; simp at e2
    | some q =>
      obtain ⟨q1, a6, q2, q3, q4, q5⟩ := f6.2 q h6
      have n6 : Spec.attr r.attrs 6 = some a6.data := q4
      have d6 : Holds b (q + 4) a6.data := by
        simp only [Spec.Attr.bytes, Holds.append] at q5
        simpa [Spec.le16] using q5.1.2
      have v6 : u32 b (q + 4) = Spec.num a6.data := num_holds (hf.2 a6 q2 (.inr q3)) d6
      have l6 : Spec.num a6.data < 2 ^ 32 := by
        simp only [Spec.num]; omega
      simp only [n6, Option.map_some, selMsg, selStep, v6]
      have cmp : (BitVec.ofNat 32 (Spec.num a6.data) < s.min) ↔ Spec.num a6.data < g.min := by
        rw [BitVec.lt_def, BitVec.toNat_ofNat, hr.min, Nat.mod_eq_of_lt l6]
      by_cases c : Spec.num a6.data < g.min
      · simp only [if_pos c, if_pos (cmp.2 c)]
        refine (fun hw => ⟨hw, fun _ => ⟨hw, ?_⟩⟩) ⟨by simp [hr.cnt], by simp only [BitVec.toNat_ofNat]; omega, by simp, by simp⟩
        intro e he
        simp only [Option.some.injEq] at he
        subst he
        exact ⟨o, rfl, by omega, v4, hgw⟩
      · simp only [if_neg c, if_neg (fun h => c (cmp.1 h))]
        refine (fun hw => ⟨hw, fun h => ⟨hw, ?_⟩⟩) ⟨by simp [hr.cnt], hr.min, hr.none_, hr.some_⟩
        rcases h with h | ⟨x, p, e1, e2, e3⟩
        · exact h.val
        · simp only [Option.some.injEq] at e1; subst e1
          simp only [Option.some.injEq] at e2; subst e2
          exact absurd (cmp.1 e3) c

theorem msg_body_len (h : Spec.Hdr) (r : Spec.Rtm) : r.body.length % 4 = 0 := by
  have : ∀ as : List Spec.Attr, (as.flatMap Spec.Attr.bytes).length % 4 = 0 := by
    intro as
    induction as with
    | nil => rfl
    | cons a as ih =>
      have := attr_len a
      have := align4_mod a.data.length
      simp only [List.flatMap_cons, List.length_append]; omega
  have := this r.attrs
  simp only [Spec.Rtm.body, Spec.le32, Spec.le16, List.length_append, List.length_cons, List.length_nil]; omega

/-- what the loop sees in the header of an encoded message -/
theorem header_enc {b : Mem} {off t : Nat} {h : Spec.Hdr} {body : List Byte}
    (hb : Holds b off (Spec.message h t body)) (ht : t < 65536) (hl : 16 + body.length < 2 ^ 32) :
    u32 b off = 16 + body.length ∧ u16 b (off + 4) = t := by
  simp only [Spec.message, Holds.append] at hb
  have h1 := u32_holds hb.1.1.1.1.1.1
  have h2 := u16_holds hb.1.1.1.1.1.2
  simp only [Spec.le32, Spec.le16, List.length_append, List.length_cons, List.length_nil] at h2
  constructor
  · rw [h1]; omega
  · rw [show off + 4 = off + (0 + 1 + 1 + (0 + 1 + 1)) by rfl, h2]; omega

/-- processing a run of encoded messages, with `rest` bytes after them in the datagram -/
theorem msgLoop_enc {b : Mem} : ∀ (ms : List Spec.Msg) (k off rest : Nat) (g : G) (s : Sel),
    Holds b off (Spec.datagram ms) → (∀ m ∈ ms, m.Fits) → (Spec.datagram ms).length < 2 ^ 32 →
    (Spec.datagram ms).length + rest < k → WRel g s →
    ∃ k' g', rest < k' ∧ WRel g' ((ms.filterMap Spec.Msg.entry).foldl selStep s) ∧
      (Rel b g s ∨ (∃ e ∈ ms.filterMap Spec.Msg.entry, ∃ p, e.pri = some p ∧ p < s.min) →
        Rel b g' ((ms.filterMap Spec.Msg.entry).foldl selStep s)) ∧
      msgLoop b k off (((Spec.datagram ms).length + rest : Nat)) g =
      msgLoop b k' (off + (Spec.datagram ms).length) (rest : Nat) g' := by
  intro ms
  induction ms with
  | nil =>
    intro k off rest g s _ _ _ hk hr
    exact ⟨k, g, by simpa [Spec.datagram] using hk, by simpa using hr,
      fun h => by simpa using h, by simp [Spec.datagram]⟩
  | cons m ms ih =>
    intro k off rest g s hb hf hl hk hr
    have ed : Spec.datagram (m :: ms) = m.bytes ++ Spec.datagram ms := by simp [Spec.datagram]
    rw [ed] at hb hl hk
    simp only [List.length_append] at hl hk
    obtain ⟨h1, h2⟩ := Holds.append.1 hb
    have hfm := hf m (by simp)
    have hfs : ∀ x ∈ ms, x.Fits := fun x hx => hf x (by simp [hx])
    match k, hk with
    | k + 1, hk =>
      -- one message
      have key : ∃ g', WRel g' (selMsg s m.entry) ∧ (Rel b g s ∨ Beats m.entry s → Rel b g' (selMsg s m.entry)) ∧
          msgLoop b (k + 1) off ((m.bytes.length + (Spec.datagram ms).length + rest : Nat)) g =
          msgLoop b k (off + m.bytes.length) (((Spec.datagram ms).length + rest : Nat)) g' := by
        match m, hfm with
        | .other h t body, ⟨f1, f2, f3, f4⟩ =>
          have hlen := message_len h t body
          have ha := align4_ge body.length
          simp only [Spec.Msg.bytes] at h1 hl hk ⊢
          obtain ⟨e1, e2⟩ := header_enc h1 f1 (by omega)
          have ea : align4 (16 + body.length) = (Spec.message h t body).length := by rw [hlen, align4_add _ _ (by omega)]
          refine ⟨{ g with log := g.log ++ [(off, 4)] ++ [(off + 4, 2)] }, log_w _ hr,
            fun h => log_r _ (h.resolve_right fun ⟨x, p, h, _⟩ => by simp [Spec.Msg.entry] at h), ?_⟩
          conv => lhs; unfold msgLoop
          have x1 : NLMSG_DONE = 3 := rfl
          have x2 : NLMSG_ERROR = 2 := rfl
          have x3 : RTM_NEWROUTE = 24 := rfl
          rw [if_neg (by omega)]
          simp only [e1, e2, x1, x2, x3]
          rw [if_neg (by omega), if_neg (by omega), if_neg f4, ea]
          congr 1
          omega
        | .route h r, hfm =>
          have hlen := message_len h 24 r.body
          have ha := align4_ge r.body.length
          have hR := routeMsg_enc (g := { g with log := g.log ++ [(off, 4)] ++ [(off + 4, 2)] }) h1 hfm (log_w _ hr)
          simp only [Spec.Msg.bytes] at h1 hl hk ⊢
          obtain ⟨e1, e2⟩ := header_enc h1 (by omega) (by omega)
          have ea : align4 (16 + r.body.length) = (Spec.message h 24 r.body).length := by rw [hlen, align4_add _ _ (by omega)]
          refine ⟨_, hR.1, fun h => hR.2 (h.imp (log_r _) id), ?_⟩
          conv => lhs; unfold msgLoop
          have x1 : NLMSG_DONE = 3 := rfl
          have x2 : NLMSG_ERROR = 2 := rfl
          have x3 : RTM_NEWROUTE = 24 := rfl
          rw [if_neg (by omega)]
          simp only [e1, e2, x1, x2, x3]
          rw [if_neg (by omega), if_neg (by omega), if_pos trivial, ea]
          congr 1
          omega
      obtain ⟨g1, r1, r2, q1⟩ := key
      have hm : 16 ≤ m.bytes.length := by
        cases m <;> simp only [Spec.Msg.bytes, message_len] <;> omega
      obtain ⟨k', g', hk', hR, hR2, hq⟩ := ih k (off + m.bytes.length) rest g1 _ h2 hfs (by omega) (by omega) r1
      have es : ((m :: ms).filterMap Spec.Msg.entry).foldl selStep s =
          (ms.filterMap Spec.Msg.entry).foldl selStep (selMsg s m.entry) := by
        cases he : m.entry <;> simp [List.filterMap_cons, he, selMsg]
      refine ⟨k', g', hk', es ▸ hR, ?_, ?_⟩
      · rw [es]
        intro h
        apply hR2
        rcases h with h | ⟨e, he, p, hp, hlt⟩
        · exact .inl (r2 (.inl h))
        · cases hm : m.entry with
          | none =>
            rw [hm] at hR2
            simp only [List.filterMap_cons, hm] at he
            exact .inr ⟨e, he, p, hp, hlt⟩
          | some e0 =>
            by_cases hb0 : ∃ p0, e0.pri = some p0 ∧ p0 < s.min
            · obtain ⟨p0, x1, x2⟩ := hb0
              exact .inl (hm ▸ r2 (.inr ⟨e0, p0, hm, x1, x2⟩))
            · simp only [List.filterMap_cons, hm, List.mem_cons] at he
              rcases he with rfl | he
              · exact absurd ⟨p, hp, hlt⟩ hb0
              · refine .inr ⟨e, he, p, hp, ?_⟩
                have : (selMsg s (some e0)).min = s.min := by
                  simp only [selMsg, selStep]
                  cases hp0 : e0.pri with
                  | none => simp only []; split <;> rfl
                  | some p0 =>
                    have : ¬ p0 < s.min := fun h => hb0 ⟨p0, hp0, h⟩
                    simp only [if_neg this]
                rw [this]; exact hlt
      · rw [ed]
        simp only [List.length_append]
        rw [q1, hq]
        congr 1
        omega

theorem fill_holds (b : Mem) (d : List Byte) (h : d.length ≤ BUF) : Holds (fill b d) 0 d := by
  intro i hi
  have : min d.length BUF = d.length := by omega
  simp only [fill, this, Nat.zero_add, if_pos hi]
  simp [List.getD_eq_getElem?_getD, List.getElem?_eq_getElem hi]

theorem fill_beyond (b : Mem) (d : List Byte) (i : Nat) (h : d.length ≤ i) : fill b d i = b i := by
  have : ¬ i < min d.length BUF := by omega
  simp [fill, this]

theorem u16_congr {b b' : Mem} {o : Nat} (h : b o = b' o) (h1 : b (o + 1) = b' (o + 1)) : u16 b o = u16 b' o := by
  simp [u16, h, h1]

/-- a datagram of at most 28 bytes does not disturb what the pointers designate -/
theorem Rel.fill {b : Mem} {g : G} {s : Sel} (hr : Rel b g s) (d : List Byte) (h : d.length ≤ 28) :
    Rel (fill b d) g s := by
  refine ⟨hr.toWRel, ?_⟩
  intro e he
  obtain ⟨o, h1, h2, h3, h4⟩ := hr.val e he
  have eq : ∀ i, 28 ≤ i → Netlink.fill b d i = b i := fun i hi => fill_beyond b d i (by omega)
  refine ⟨o, h1, h2, ?_, ?_⟩
  · rw [← h3]
    simp only [u32, u16, eq _ (show 28 ≤ o + 4 by omega), eq _ (show 28 ≤ o + 4 + 1 by omega),
      eq _ (show 28 ≤ o + 4 + 2 by omega), eq _ (show 28 ≤ o + 4 + 2 + 1 by omega)]
  · cases hg : e.gw with
    | none => simpa [hg] using h4
    | some dd =>
      simp only [hg] at h4 ⊢
      obtain ⟨q, q1, q2, q3, q4⟩ := h4
      refine ⟨q, q1, q2, ?_, ?_⟩
      · rw [← q3]
        simp only [u16, eq _ (show 28 ≤ q by omega), eq _ (show 28 ≤ q + 1 by omega)]
      · intro i hi
        rw [eq _ (by omega)]
        exact q4 i hi

theorem rel_init (b : Mem) : Rel b G.init ⟨0xffffffff#32, none, 0⟩ :=
  ⟨⟨rfl, rfl, fun _ => ⟨rfl, rfl⟩, fun e h => by simp at h⟩, fun e h => by simp at h⟩

/-- the visible part of the result -/
def DefRoute.vis (d : DefRoute) : Spec.Stored := ⟨d.family, d.oif, d.cnt, d.gw⟩

theorem finish_enc (af : Nat) {b : Mem} {g : G} {s : Sel} (hr : Rel b g s)
    (hgw : ∀ e d, s.best = some e → e.gw = some d → d.length < 65532) :
    (finish af b g).map DefRoute.vis = s.best.map fun e => ⟨af, e.oif, min s.cnt 2, e.gw⟩ := by
  cases hb : s.best with
  | none => simp [finish, (hr.none_ hb).1]
  | some e =>
    obtain ⟨o, h1, h2, h3, h4⟩ := hr.val e hb
    simp only [finish, h1, Option.map_some, DefRoute.vis, h3, hr.cnt]
    have hc : (if s.cnt > 2 then 2 else s.cnt) = min s.cnt 2 := by split <;> omega
    rw [hc]
    cases hg : e.gw with
    | none => simp only [hg] at h4; simp [h4]
    | some d =>
      simp only [hg] at h4
      obtain ⟨q, q1, q2, q3, q4⟩ := h4
      have hd := hgw e d hb hg
      have hp : rtaPayload b q = d.length := by simp only [rtaPayload, q3]; omega
      simp only [q1, Option.map_some, hp]
      have el : (List.range d.length).map (fun i => b (q + 4 + i)) = d := by
        apply List.ext_getElem
        · simp
        · intro i h1 h2
          simp only [List.getElem_map, List.getElem_range]
          exact q4 i h2
      rw [el]

theorem select_cnt (es : List Entry) : (select es).cnt = es.length := by
  have : ∀ (es : List Entry) (s : Sel), (es.foldl selStep s).cnt = s.cnt + es.length := by
    intro es
    induction es with
    | nil => intro s; rfl
    | cons e es ih =>
      intro s
      have h1 : (selStep s e).cnt = s.cnt + 1 := by simp only [selStep]; split <;> split <;> rfl
      simp only [List.foldl_cons, ih, h1, List.length_cons]; omega
  simpa [select] using this es ⟨0xffffffff#32, none, 0⟩

theorem select_mem {es : List Entry} {e : Entry} (h : (select es).best = some e) : e ∈ es := by
  have : ∀ (es : List Entry) (s : Sel), (es.foldl selStep s).best = some e → s.best = some e ∨ e ∈ es := by
    intro es
    induction es with
    | nil => intro s h; exact .inl h
    | cons x es ih =>
      intro s h
      rcases ih _ h with h | h
      · simp only [selStep] at h
        split at h
        · split at h
          · simp only [Option.some.injEq] at h; subst h; simp
          · exact .inl h
        · split at h
          · simp only [Option.some.injEq] at h; subst h; simp
          · exact .inl h
      · simp [h]
  rcases this es _ h with h | h
  · simp at h
  · exact h

theorem entry_family {af : Nat} (haf : af = 2 ∨ af = 10) {ms : List Spec.Msg} (h : Spec.OnlyFamily af ms) :
    Spec.defaults af ms = ms.filterMap Spec.Msg.entry := by
  have cong : ∀ (f g : Spec.Msg → Option Entry) (l : List Spec.Msg), (∀ m ∈ l, f m = g m) → l.filterMap f = l.filterMap g := by
    intro f g l
    induction l with
    | nil => intro _; rfl
    | cons a l ih =>
      intro hx
      simp only [List.filterMap_cons, hx a (by simp), ih (fun m hm => hx m (by simp [hm]))]
  unfold Spec.defaults
  apply cong
  intro m hm
  match m with
  | .other .. => rfl
  | .route hd r =>
    have := h hd r hm
    simp only [Spec.Msg.entry, this]
    rcases haf with rfl | rfl <;> simp

/-- gateways fit -/
theorem gw_fits {ms : List Spec.Msg} (hf : ∀ m ∈ ms, m.Fits) {e : Entry} {d : List Byte}
    (he : e ∈ ms.filterMap Spec.Msg.entry) (hd : e.gw = some d) : d.length < 65532 := by
  obtain ⟨m, hm, h⟩ := List.mem_filterMap.1 he
  have hfm := hf m hm
  match m, hfm with
  | .other .., _ => simp [Spec.Msg.entry] at h
  | .route hd' r, hfm =>
    simp only [Spec.Msg.entry] at h
    split at h
    · simp only [Option.map_eq_some_iff] at h
      obtain ⟨_, _, rfl⟩ := h
      simp only [Spec.attr, Option.map_eq_some_iff] at hd
      obtain ⟨a, ha, rfl⟩ := hd
      have := (hfm.1 a (List.mem_of_find?_eq_some ha)).2
      omega
    · simp at h

theorem msgLoop_stop (b : Mem) (k off : Nat) (g : G) : msgLoop b k off 0 g = (g, false) := by
  cases k <;> simp [msgLoop]

theorem msgLoop_done {b : Mem} {k off : Nat} {g : G} {h : Spec.Hdr} {body : List Byte} {n : Nat}
    (hb : Holds b off (Spec.message h 3 body)) (hk : 0 < k) (hl : (Spec.message h 3 body).length < 2 ^ 32)
    (hn : (Spec.message h 3 body).length ≤ n) :
    ∃ l, msgLoop b k off (n : Nat) g = ({ g with log := l }, true) := by
  have hlen := message_len h 3 body
  have ha := align4_ge body.length
  obtain ⟨e1, e2⟩ := header_enc hb (by omega) (by omega)
  match k, hk with
  | k + 1, _ =>
    unfold msgLoop
    rw [if_neg (by omega)]
    simp only [e1, e2]
    rw [if_neg (by omega)]
    simp only [NLMSG_DONE, true_or, if_true]
    exact ⟨_, rfl⟩

/-- the data datagrams of a dump -/
theorem recv_data : ∀ (dss : List (List Spec.Msg)) (rest : List (Option (List Byte))) (b : Mem) (g : G) (s : Sel),
    (∀ ms ∈ dss, ms ≠ [] ∧ (∀ m ∈ ms, m.Fits) ∧ (Spec.datagram ms).length ≤ 16384) → WRel g s →
    ∃ b' g', WRel g' ((dss.flatten.filterMap Spec.Msg.entry).foldl selStep s) ∧
      recvLoop (dss.map (fun ms => some (Spec.datagram ms)) ++ rest) b g = recvLoop rest b' g' := by
  intro dss
  induction dss with
  | nil => intro rest b g s _ hw; exact ⟨b, g, by simpa using hw, by simp⟩
  | cons ms dss ih =>
    intro rest b g s hd hw
    obtain ⟨h1, h2, h3⟩ := hd ms (by simp)
    have hpos : 0 < (Spec.datagram ms).length := by
      match ms, h1 with
      | m :: ms, _ =>
        have : 16 ≤ m.bytes.length := by cases m <;> simp only [Spec.Msg.bytes, message_len] <;> omega
        simp [Spec.datagram]; omega
    have hmin : min (Spec.datagram ms).length BUF = (Spec.datagram ms).length := by
      have : BUF = 16384 := rfl
      omega
    obtain ⟨k', g', _, q1, _, q2⟩ := msgLoop_enc ms ((Spec.datagram ms).length + 1) 0 0 g s
      (fill_holds b _ h3) h2 (by omega) (by omega) hw
    obtain ⟨b'', g'', r1, r2⟩ := ih rest (fill b (Spec.datagram ms)) _ _ (fun x hx => hd x (by simp [hx]))
      (out_w [] (g'.out ++ beyond (Spec.datagram ms).length g'.log) q1)
    refine ⟨b'', g'', ?_, ?_⟩
    · simpa [List.filterMap_append, List.foldl_append] using r1
    · simp only [List.map_cons, List.cons_append]
      conv => lhs; unfold recvLoop
      rw [if_neg (by omega)]
      simp only [hmin]
      simp only [Nat.add_zero] at q2
      rw [q2, show ((0 : Nat) : Int) = 0 from rfl, msgLoop_stop]
      simp only [Bool.false_eq_true, if_false]
      exact r2

/-- the last datagram with routes, and then a short one saying that the dump is complete -/
theorem recv_last {ms : List Spec.Msg} (hne : ms ≠ []) (hf : ∀ m ∈ ms, m.Fits) (hl : (Spec.datagram ms).length ≤ 16384)
    (h : Spec.Hdr) (body : List Byte) (hb : body.length ≤ 12) (rest : List (Option (List Byte))) (b : Mem) {g : G} {s : Sel}
    (hw : WRel g s) :
    ∃ b' g', recvLoop (some (Spec.datagram ms) :: some (Spec.message h 3 body) :: rest) b g = some (b', g') ∧
      WRel g' ((ms.filterMap Spec.Msg.entry).foldl selStep s) ∧
      (s.best = none ∨ (∃ e ∈ ms.filterMap Spec.Msg.entry, ∃ p, e.pri = some p ∧ p < s.min) →
        Rel b' g' ((ms.filterMap Spec.Msg.entry).foldl selStep s)) := by
  have hpos : 0 < (Spec.datagram ms).length := by
    match ms, hne with
    | m :: ms, _ =>
      have : 16 ≤ m.bytes.length := by cases m <;> simp only [Spec.Msg.bytes, message_len] <;> omega
      simp [Spec.datagram]; omega
  have hB : BUF = 16384 := rfl
  have hmin : min (Spec.datagram ms).length BUF = (Spec.datagram ms).length := by omega
  obtain ⟨k', g', _, q1, q3, q2⟩ := msgLoop_enc ms ((Spec.datagram ms).length + 1) 0 0 g s
    (fill_holds b _ hl) hf (by omega) (by omega) hw
  have hml := message_len h 3 body
  have ha := align4_ge body.length
  have hal : align4 body.length ≤ 12 := by unfold align4; omega
  have hmin2 : min (Spec.message h 3 body).length BUF = (Spec.message h 3 body).length := by omega
  obtain ⟨l, hl2⟩ := msgLoop_done (k := (Spec.message h 3 body).length + 1) (n := (Spec.message h 3 body).length)
    (g := { g' with log := [], out := g'.out ++ beyond (Spec.datagram ms).length g'.log })
    (fill_holds (fill b (Spec.datagram ms)) (Spec.message h 3 body) (by omega)) (by omega) (by omega) (Nat.le_refl _)
  refine ⟨fill (fill b (Spec.datagram ms)) (Spec.message h 3 body),
    { g' with log := [], out := g'.out ++ beyond (Spec.datagram ms).length g'.log ++ beyond (Spec.message h 3 body).length l },
    ?_, out_w _ _ q1, fun hc => out_r _ _ (Rel.fill (q3 ?_) _ (by omega))⟩
  · conv => lhs; unfold recvLoop
    rw [if_neg (by omega)]
    simp only [hmin]
    simp only [Nat.add_zero] at q2
    rw [q2, show ((0 : Nat) : Int) = 0 from rfl, msgLoop_stop]
    simp only [Bool.false_eq_true, if_false]
    unfold recvLoop
    rw [if_neg (by omega)]
    simp only [hmin2, hl2, if_true]
  · exact hc.imp (fun hn => hw.rel hn) id

/-! ### C147 -/

/-- C147, one datagram: if all the messages of the dump arrive in one datagram, followed by the datagram
    that ends the dump, the route stored is the chosen default route of the dump (its interface, its
    gateway bytes and the number of default routes), and there is none exactly if the dump has none. -/
theorem C147_one_datagram (af : Nat) (haf : af = 2 ∨ af = 10) (junk : Mem) (ms : List Spec.Msg)
    (hfam : Spec.OnlyFamily af ms) (hne : ms ≠ []) (hf : ∀ m ∈ ms, m.Fits)
    (hl : (Spec.datagram ms).length ≤ 16384) (h : Spec.Hdr) (body : List Byte) (hb : body.length ≤ 12)
    (rest : List (Option (List Byte))) :
    (getDefaultRt af junk (some (Spec.datagram ms) :: some (Spec.message h 3 body) :: rest)).map
      (Option.map DefRoute.vis) = some (Spec.result af (Spec.defaults af ms)) := by
  obtain ⟨b', g', e1, _, e3⟩ := recv_last hne hf hl h body hb rest junk (rel_init junk).toWRel
  have hr := e3 (.inl rfl)
  simp only [getDefaultRt, e1, Option.map_some]
  rw [finish_enc af hr]
  · rw [entry_family haf hfam, Spec.result]
    have := select_cnt (ms.filterMap Spec.Msg.entry)
    simp only [select] at this
    simp only [select, this]
  · intro e d he hd
    exact gw_fits hf (select_mem he) hd

/-- C147, the end of the dump in the same datagram as the routes -/
theorem C147_done_inside (af : Nat) (haf : af = 2 ∨ af = 10) (junk : Mem) (ms : List Spec.Msg)
    (hfam : Spec.OnlyFamily af ms) (hf : ∀ m ∈ ms, m.Fits)
    (h : Spec.Hdr) (body : List Byte) (hl : (Spec.datagram ms ++ Spec.message h 3 body).length ≤ 16384)
    (rest : List (Option (List Byte))) :
    (getDefaultRt af junk (some (Spec.datagram ms ++ Spec.message h 3 body) :: rest)).map
      (Option.map DefRoute.vis) = some (Spec.result af (Spec.defaults af ms)) := by
  have hml := message_len h 3 body
  have hB : BUF = 16384 := rfl
  have hh := Holds.append.1 (fill_holds junk _ hl)
  have hlen : (Spec.datagram ms ++ Spec.message h 3 body).length = (Spec.datagram ms).length + (Spec.message h 3 body).length := by
    simp
  rw [hlen] at hl
  obtain ⟨k', g', q0, _, q3, q2⟩ := msgLoop_enc ms ((Spec.datagram ms).length + (Spec.message h 3 body).length + 1) 0
    (Spec.message h 3 body).length G.init _ hh.1 hf (by omega) (by omega) (rel_init junk).toWRel
  obtain ⟨l, hl2⟩ := msgLoop_done (k := k') (g := g') hh.2 (by omega) (by omega) (Nat.le_refl _)
  have hmin : min (Spec.datagram ms ++ Spec.message h 3 body).length BUF = (Spec.datagram ms).length + (Spec.message h 3 body).length := by
    omega
  have hr := out_r [] (g'.out ++ beyond ((Spec.datagram ms).length + (Spec.message h 3 body).length) l) (q3 (.inl ⟨(rel_init junk).toWRel, fun e he => by simp at he⟩))
  have e1 : recvLoop (some (Spec.datagram ms ++ Spec.message h 3 body) :: rest) junk G.init =
      some (fill junk (Spec.datagram ms ++ Spec.message h 3 body), { g' with log := [], out := g'.out ++ beyond ((Spec.datagram ms).length + (Spec.message h 3 body).length) l }) := by
    unfold recvLoop
    rw [if_neg (by omega)]
    simp only [hmin]
    rw [q2, hl2]
    simp only [if_true]
  simp only [getDefaultRt, e1, Option.map_some]
  rw [finish_enc af hr]
  · rw [entry_family haf hfam, Spec.result]
    have := select_cnt (ms.filterMap Spec.Msg.entry)
    simp only [select] at this
    simp only [select, this]
  · intro e d he hd
    exact gw_fits hf (select_mem he) hd

/-- C147, any number of datagrams: the result is right if the routes of the last datagram decide, that is,
    if no earlier datagram has a default route or one of the last datagram has a better metric than all
    earlier ones. Partial: without this condition the statement is false (`C147_spans_datagrams`). -/
theorem C147_last_decides_partial (af : Nat) (haf : af = 2 ∨ af = 10) (junk : Mem)
    (dss : List (List Spec.Msg)) (ms : List Spec.Msg)
    (hfam : Spec.OnlyFamily af (dss.flatten ++ ms))
    (hds : ∀ d ∈ dss, d ≠ [] ∧ (∀ m ∈ d, m.Fits) ∧ (Spec.datagram d).length ≤ 16384)
    (hne : ms ≠ []) (hf : ∀ m ∈ ms, m.Fits) (hl : (Spec.datagram ms).length ≤ 16384)
    (hlast : Spec.defaults af dss.flatten = [] ∨
      ∃ e ∈ Spec.defaults af ms, ∃ p, e.pri = some p ∧ p < 0xffffffff#32 ∧
        ∀ e' ∈ Spec.defaults af dss.flatten, ∃ p', e'.pri = some p' ∧ p < p')
    (h : Spec.Hdr) (body : List Byte) (hb : body.length ≤ 12) (rest : List (Option (List Byte))) :
    (getDefaultRt af junk (dss.map (fun d => some (Spec.datagram d)) ++
        some (Spec.datagram ms) :: some (Spec.message h 3 body) :: rest)).map (Option.map DefRoute.vis) =
      some (Spec.result af (Spec.defaults af (dss.flatten ++ ms))) := by
  have fam1 : Spec.OnlyFamily af dss.flatten := fun hd r hm => hfam hd r (List.mem_append_left _ hm)
  have fam2 : Spec.OnlyFamily af ms := fun hd r hm => hfam hd r (List.mem_append_right _ hm)
  rw [entry_family haf fam1, entry_family haf fam2] at hlast
  rw [entry_family haf hfam]
  obtain ⟨b1, g1, w1, r1⟩ := recv_data dss (some (Spec.datagram ms) :: some (Spec.message h 3 body) :: rest) junk
    G.init _ hds (rel_init junk).toWRel
  obtain ⟨b', g', e1, _, e3⟩ := recv_last hne hf hl h body hb rest b1 w1
  have hr := e3 (by
    rcases hlast with h0 | ⟨e, he, p, hp, hmax, hall⟩
    · left; simp [h0]
    · right
      refine ⟨e, he, p, hp, ?_⟩
      have : ∀ (es : List Entry) (s : Sel), p < s.min → (∀ e' ∈ es, ∃ p', e'.pri = some p' ∧ p < p') →
          p < (es.foldl selStep s).min := by
        intro es
        induction es with
        | nil => intro s hs _; exact hs
        | cons x es ih =>
          intro s hs hx
          obtain ⟨p', hp', hlt⟩ := hx x (by simp)
          apply ih
          · simp only [selStep, hp']; split
            · exact hlt
            · exact hs
          · exact fun e' he' => hx e' (by simp [he'])
      exact this _ _ hmax hall)
  simp only [getDefaultRt, r1, e1, Option.map_some]
  rw [finish_enc af hr]
  · have hc := select_cnt ((dss.flatten ++ ms).filterMap Spec.Msg.entry)
    simp only [select, List.filterMap_append, List.foldl_append] at hc
    simp only [Spec.result, select, List.filterMap_append, List.foldl_append, hc]
  · intro e d he hd
    have he : (select ((dss.flatten ++ ms).filterMap Spec.Msg.entry)).best = some e := by
      simpa [select, List.filterMap_append, List.foldl_append] using he
    refine gw_fits (ms := dss.flatten ++ ms) ?_ (select_mem he) hd
    intro m hm
    rcases List.mem_append.1 hm with hm | hm
    · obtain ⟨d, hd, hm⟩ := List.mem_flatten.1 hm
      exact (hds d hd).2.1 m hm
    · exact hf m hm

/-- C147, any dump: whether there is a default route, and how many, is right however many datagrams the
    dump takes. Partial: only the existence and the number. -/
theorem C147_any_dump_partial (af : Nat) (haf : af = 2 ∨ af = 10) (junk : Mem)
    (dss : List (List Spec.Msg)) (ms : List Spec.Msg)
    (hfam : Spec.OnlyFamily af (dss.flatten ++ ms))
    (hds : ∀ d ∈ dss, d ≠ [] ∧ (∀ m ∈ d, m.Fits) ∧ (Spec.datagram d).length ≤ 16384)
    (hne : ms ≠ []) (hf : ∀ m ∈ ms, m.Fits) (hl : (Spec.datagram ms).length ≤ 16384)
    (h : Spec.Hdr) (body : List Byte) (hb : body.length ≤ 12) (rest : List (Option (List Byte))) :
    ∃ r, getDefaultRt af junk (dss.map (fun d => some (Spec.datagram d)) ++
        some (Spec.datagram ms) :: some (Spec.message h 3 body) :: rest) = some r ∧
      (r.isSome ↔ (Spec.result af (Spec.defaults af (dss.flatten ++ ms))).isSome) ∧
      (∀ d, r = some d → d.cnt = min (Spec.defaults af (dss.flatten ++ ms)).length 2 ∧ d.family = af) := by
  rw [entry_family haf hfam]
  obtain ⟨b1, g1, w1, r1⟩ := recv_data dss (some (Spec.datagram ms) :: some (Spec.message h 3 body) :: rest) junk
    G.init _ hds (rel_init junk).toWRel
  obtain ⟨b', g', e1, w2, _⟩ := recv_last hne hf hl h body hb rest b1 w1
  refine ⟨finish af b' g', ?_, ?_, ?_⟩
  · simp only [getDefaultRt, r1, e1, Option.map_some]
  · have es : (select ((dss.flatten ++ ms).filterMap Spec.Msg.entry)).best =
      ((ms.filterMap Spec.Msg.entry).foldl selStep ((dss.flatten.filterMap Spec.Msg.entry).foldl selStep ⟨0xffffffff#32, none, 0⟩)).best := by
      simp [select, List.filterMap_append, List.foldl_append]
    simp only [Spec.result, es, Option.isSome_map]
    cases hbst : ((ms.filterMap Spec.Msg.entry).foldl selStep ((dss.flatten.filterMap Spec.Msg.entry).foldl selStep ⟨0xffffffff#32, none, 0⟩)).best with
    | none => simp [finish, (w2.none_ hbst).1]
    | some e =>
      obtain ⟨o, ho⟩ := Option.isSome_iff_exists.1 (w2.some_ e hbst)
      simp [finish, ho]
  · intro d hd
    have hc := select_cnt ((dss.flatten ++ ms).filterMap Spec.Msg.entry)
    simp only [select, List.filterMap_append, List.foldl_append] at hc
    rw [List.filterMap_append, ← hc, ← w2.cnt]
    unfold finish at hd
    split at hd
    · simp at hd
    · simp only [Option.some.injEq] at hd
      subst hd
      constructor
      · simp only; split <;> omega
      · rfl

/-! concrete dumps -/

def hd0 : Spec.Hdr := ⟨2, 1, 77⟩
/-- the main default route: metric 100, interface 2, gateway 192.168.1.1 -/
def rtDef : Spec.Msg := .route hd0 ⟨2, 0, 0, 0, 254, 16, 0, 1, 0,
  [⟨6, [100, 0, 0, 0]⟩, ⟨4, [2, 0, 0, 0]⟩, ⟨5, [192, 168, 1, 1]⟩]⟩
/-- a second one: metric 600, interface 3 -/
def rtDef2 : Spec.Msg := .route hd0 ⟨2, 0, 0, 0, 254, 16, 0, 1, 0,
  [⟨6, [88, 2, 0, 0]⟩, ⟨4, [3, 0, 0, 0]⟩, ⟨5, [10, 0, 0, 1]⟩]⟩
/-- a network route: 10.0.0.0/8, metric 600, interface 3 -/
def rtNet : Spec.Msg := .route hd0 ⟨2, 8, 0, 0, 254, 2, 253, 1, 0,
  [⟨1, [10, 0, 0, 0]⟩, ⟨6, [88, 2, 0, 0]⟩, ⟨4, [3, 0, 0, 0]⟩]⟩

theorem rtFits : rtDef.Fits ∧ rtDef2.Fits ∧ rtNet.Fits := by
  refine ⟨⟨?_, ?_⟩, ⟨?_, ?_⟩, ⟨?_, ?_⟩⟩ <;> intro a ha <;> simp at ha <;> rcases ha with rfl | rfl | rfl <;>
    simp [Spec.Attr.Fits]

/-- the hypotheses of `C147_one_datagram` hold of a dump of three routes; the best metric is found -/
example : (∀ m ∈ [rtDef2, rtNet, rtDef], m.Fits) ∧ Spec.OnlyFamily 2 [rtDef2, rtNet, rtDef] ∧
    (Spec.datagram [rtDef2, rtNet, rtDef]).length = 156 ∧
    (getDefaultRt 2 (fun _ => 0) [some (Spec.datagram [rtDef2, rtNet, rtDef]), some (Spec.message hd0 3 [0, 0, 0, 0])]).map
      (Option.map DefRoute.vis) = some (some ⟨2, 2, 2, some [192, 168, 1, 1]⟩) := by
  refine ⟨?_, ?_, by decide +kernel, by decide +kernel⟩
  · intro m hm
    simp at hm
    rcases hm with rfl | rfl | rfl
    · exact rtFits.2.1
    · exact rtFits.2.2
    · exact rtFits.1
  · intro h r hm
    simp [rtDef, rtDef2, rtNet] at hm
    rcases hm with ⟨_, rfl⟩ | ⟨_, rfl⟩ | ⟨_, rfl⟩ <;> rfl

/-- `C147_last_decides_partial` is met by two datagrams, the better route being in the second -/
example : (∃ e ∈ Spec.defaults 2 [rtDef], ∃ p, e.pri = some p ∧ p < 0xffffffff#32 ∧
      ∀ e' ∈ Spec.defaults 2 [rtDef2, rtNet], ∃ p', e'.pri = some p' ∧ p < p') ∧
    (getDefaultRt 2 (fun _ => 0) [some (Spec.datagram [rtDef2, rtNet]), some (Spec.datagram [rtDef]),
      some (Spec.message hd0 3 [0, 0, 0, 0])]).map (Option.map DefRoute.vis) =
      some (some ⟨2, 2, 2, some [192, 168, 1, 1]⟩) := by
  refine ⟨⟨⟨some 100, 2, some [192, 168, 1, 1]⟩, by decide +kernel, 100, rfl, by decide, ?_⟩, by decide +kernel⟩
  intro e' he'
  have : e' = ⟨some 600, 3, some [10, 0, 0, 1]⟩ := by
    have h : Spec.defaults 2 [rtDef2, rtNet] = [⟨some 600, 3, some [10, 0, 0, 1]⟩] := by decide +kernel
    rw [h] at he'; simpa using he'
  subst this
  exact ⟨600, rfl, by decide⟩

/-- C147 fails in general: when the dump takes two datagrams and the second has only an ordinary network
    route, the stored interface index is 600 (the metric of the network route) and the stored gateway is
    3.0.0.0 (its interface index): values of no default route, read where the first datagram had been. -/
theorem C147_spans_datagrams :
    Spec.result 2 (Spec.defaults 2 ([rtDef] ++ [rtNet])) = some ⟨2, 2, 1, some [192, 168, 1, 1]⟩ ∧
    (getDefaultRt 2 (fun _ => 0) [some (Spec.datagram [rtDef]), some (Spec.datagram [rtNet]),
      some (Spec.message hd0 3 [0, 0, 0, 0])]).map (Option.map DefRoute.vis) =
      some (some ⟨2, 600, 1, some [3, 0, 0, 0]⟩) := by
  constructor <;> decide +kernel

/-- C147 fails when the kernel's dump has routes of another family (a kernel without IPv6 answers a dump
    request for IPv6 routes with those of all families): an IPv6 default route is reported that does not exist. -/
theorem C147_other_family :
    Spec.result 10 (Spec.defaults 10 [rtDef]) = none ∧
    (getDefaultRt 10 (fun _ => 0) [some (Spec.datagram [rtDef]), some (Spec.message hd0 3 [0, 0, 0, 0])]).map
      (Option.map DefRoute.vis) = some (some ⟨10, 2, 1, some [192, 168, 1, 1]⟩) := by
  constructor <;> decide +kernel

/-! ### C148: reads and writes -/

/-- The attribute parser, for any bytes: it reads only inside the `len` bytes it was given, the attributes
    it returns lie inside them, are at least 4 bytes long and have the type asked for, and it ends after at
    most `len + 1` rounds. -/
theorem C148_attributes (b : Mem) (off : Nat) (len : Int) (cnt : Nat) :
    (∀ a ∈ (parseRtattrs b off len cnt).log, off ≤ a.1 ∧ ((a.1 + a.2 : Nat) : Int) ≤ off + len) ∧
    (∀ t o, (parseRtattrs b off len cnt).rtas t = some o →
      t < cnt ∧ off ≤ o ∧ u16 b (o + 2) = t ∧ 4 ≤ u16 b o ∧ ((o + u16 b o : Nat) : Int) ≤ off + len) ∧
    (∀ k, len.toNat < k → parseLoop b cnt k off len ⟨fun _ => none, []⟩ = parseRtattrs b off len cnt) := by
  have main : ∀ (k off' : Nat) (len' : Int) (s : PSt), off ≤ off' → (off' : Int) + len' ≤ off + len →
      (∀ a ∈ s.log, off ≤ a.1 ∧ ((a.1 + a.2 : Nat) : Int) ≤ off + len) →
      (∀ t o, s.rtas t = some o → t < cnt ∧ off ≤ o ∧ u16 b (o + 2) = t ∧ 4 ≤ u16 b o ∧ ((o + u16 b o : Nat) : Int) ≤ off + len) →
      (∀ a ∈ (parseLoop b cnt k off' len' s).log, off ≤ a.1 ∧ ((a.1 + a.2 : Nat) : Int) ≤ off + len) ∧
      (∀ t o, (parseLoop b cnt k off' len' s).rtas t = some o →
        t < cnt ∧ off ≤ o ∧ u16 b (o + 2) = t ∧ 4 ≤ u16 b o ∧ ((o + u16 b o : Nat) : Int) ≤ off + len) := by
    intro k
    induction k with
    | zero => intro off' len' s _ _ h1 h2; exact ⟨h1, h2⟩
    | succ k ih =>
      intro off' len' s ho hl h1 h2
      unfold parseLoop
      split
      · exact ⟨h1, h2⟩
      · rename_i hlen
        simp only
        split
        · refine ⟨?_, h2⟩
          intro a ha
          simp only [List.mem_append, List.mem_singleton] at ha
          rcases ha with ha | rfl
          · exact h1 a ha
          · exact ⟨ho, by simp only; omega⟩
        · rename_i hc
          have ha4 := align4_ge (u16 b off')
          apply ih
          · omega
          · omega
          · intro a ha
            simp only [List.mem_append, List.mem_cons, List.not_mem_nil, or_false] at ha
            rcases ha with ha | rfl | rfl
            · exact h1 a ha
            · exact ⟨ho, by simp only; omega⟩
            · exact ⟨by simp only; omega, by simp only; omega⟩
          · intro t o hto
            simp only at hto
            split at hto
            · rename_i hq
              by_cases et : t = u16 b (off' + 2)
              · simp only [if_pos et] at hto
                obtain rfl : off' = o := by simpa using hto
                subst et
                exact ⟨hq.1, ho, rfl, by omega, by omega⟩
              · simp only [if_neg et] at hto; exact h2 t o hto
            · exact h2 t o hto
  have fuel : ∀ (k k' off' : Nat) (len' : Int) (s : PSt), len'.toNat < k → len'.toNat < k' →
      parseLoop b cnt k off' len' s = parseLoop b cnt k' off' len' s := by
    intro k
    induction k with
    | zero => intro k' off' len' s h _; omega
    | succ k ih =>
      intro k' off' len' s h h'
      match k', h' with
      | k' + 1, h' =>
        unfold parseLoop
        split
        · rfl
        · simp only
          split
          · rfl
          · have ha4 := align4_ge (u16 b off')
            apply ih <;> omega
  have := main (len.toNat + 1) off len ⟨fun _ => none, []⟩ (Nat.le_refl _) (Int.le_refl _) (by simp) (by simp)
  exact ⟨this.1, this.2, fun k hk => fuel k _ off len _ hk (by omega)⟩

/-- a block with a truncated last attribute: the first one is returned, the rest is not looked at -/
example : let b : Mem := fun i => ([8, 0, 4, 0, 7, 0, 0, 0, 200, 0, 5, 0] : List Byte).getD i 0
    (parseRtattrs b 0 12 31).rtas 4 = some 0 ∧ (parseRtattrs b 0 12 31).rtas 5 = none ∧
    (parseRtattrs b 0 12 31).log = [(0, 2), (2, 2), (8, 2)] := by decide +kernel

/-- in the message loop -/
theorem routeMsg_log (b : Mem) (off nl : Nat) (g : G) :
    (∀ a ∈ (routeMsg b off nl g).log, a ∈ g.log ∨ a.1 + a.2 ≤ max (off + 24) (off + nl + 4)) ∧
    (routeMsg b off nl g).out = g.out ∧
    (∀ o, (routeMsg b off nl g).oif = some o → g.oif = some o ∨ o + 4 ≤ off + nl) ∧
    (∀ o, (routeMsg b off nl g).gw = some o → g.gw = some o ∨ o + 4 ≤ off + nl) := by
  have P := C148_attributes b (off + 28) ((nl : Int) - 28) RTA_CNT
  have hl : ∀ a ∈ (parseRtattrs b (off + 28) ((nl : Int) - 28) RTA_CNT).log, a.1 + a.2 ≤ off + nl := by
    intro a ha; have := P.1 a ha; omega
  have ho : ∀ t o, (parseRtattrs b (off + 28) ((nl : Int) - 28) RTA_CNT).rtas t = some o → o + 4 ≤ off + nl := by
    intro t o h; have := P.2.1 t o h; omega
  have mem : ∀ (L : List Acc) (a : Acc), a ∈ g.log ++ [(off + 23, 1)] ++ [(off + 16, 1)] ++ [(off + 17, 1)] ++
      (parseRtattrs b (off + 28) ((nl : Int) - 28) RTA_CNT).log ++ L → a ∈ g.log ∨ a.1 + a.2 ≤ max (off + 24) (off + nl + 4) ∨ a ∈ L := by
    intro L a ha
    simp only [List.mem_append, List.mem_singleton] at ha
    rcases ha with ((((ha | rfl) | rfl) | rfl) | ha) | ha
    · exact .inl ha
    · exact .inr (.inl (by simp only; omega))
    · exact .inr (.inl (by simp only; omega))
    · exact .inr (.inl (by simp only; omega))
    · have := hl a ha; exact .inr (.inl (by omega))
    · exact .inr (.inr ha)
  unfold routeMsg
  simp only
  split
  · refine ⟨?_, rfl, fun o h => .inl h, fun o h => .inl h⟩
    intro a ha
    exact (mem [] a (by simp at ha ⊢; grind)).imp id (fun h => h.elim id (by simp))
  split
  · refine ⟨?_, rfl, fun o h => .inl h, fun o h => .inl h⟩
    intro a ha
    exact (mem [] a (by simp at ha ⊢; grind)).imp id (fun h => h.elim id (by simp))
  split
  · refine ⟨?_, rfl, fun o h => .inl h, fun o h => .inl h⟩
    intro a ha
    exact (mem [] a (by simp at ha ⊢; grind)).imp id (fun h => h.elim id (by simp))
  split
  · refine ⟨?_, rfl, fun o h => .inl h, fun o h => .inl h⟩
    intro a ha
    exact (mem [] a (by simp at ha ⊢; grind)).imp id (fun h => h.elim id (by simp))
  · rename_i o h4
    split
    · rename_i q h6
      have hq := ho _ _ h6
      split
      · refine ⟨?_, rfl, fun o' h => ?_, fun o' h => ?_⟩
        · intro a ha
          rcases mem [(q + 4, 4)] a ha with h | h | h
          · exact .inl h
          · exact .inr h
          · simp only [List.mem_singleton] at h; subst h; exact .inr (by simp only; omega)
        · simp only [Option.some.injEq] at h; subst h; exact .inr (ho _ _ h4)
        · exact .inr (ho _ _ h)
      · refine ⟨?_, rfl, fun o h => .inl h, fun o h => .inl h⟩
        intro a ha
        rcases mem [(q + 4, 4)] a ha with h | h | h
        · exact .inl h
        · exact .inr h
        · simp only [List.mem_singleton] at h; subst h; exact .inr (by simp only; omega)
    · split
      · refine ⟨?_, rfl, fun o' h => ?_, fun o' h => ?_⟩
        · intro a ha
          exact (mem [] a (by simpa using ha)).imp id (fun h => h.elim id (by simp))
        · simp only [Option.some.injEq] at h; subst h; exact .inr (ho _ _ h4)
        · exact .inr (ho _ _ h)
      · refine ⟨?_, rfl, fun o h => .inl h, fun o h => .inl h⟩
        intro a ha
        exact (mem [] a (by simpa using ha)).imp id (fun h => h.elim id (by simp))

theorem msgLoop_log (b : Mem) (n : Nat) : ∀ (k off : Nat) (len : Int) (g : G), (off : Int) + len ≤ n →
    (∀ a ∈ g.log, a.1 + a.2 ≤ n + 8) → (∀ o, g.oif = some o → o + 4 ≤ max n BUF) → (∀ o, g.gw = some o → o + 4 ≤ max n BUF) →
    (∀ a ∈ (msgLoop b k off len g).1.log, a.1 + a.2 ≤ n + 8) ∧ (msgLoop b k off len g).1.out = g.out ∧
    (∀ o, (msgLoop b k off len g).1.oif = some o → o + 4 ≤ max n BUF) ∧
    (∀ o, (msgLoop b k off len g).1.gw = some o → o + 4 ≤ max n BUF) := by
  intro k
  induction k with
  | zero => intro off len g _ h1 h2 h3; exact ⟨h1, rfl, h2, h3⟩
  | succ k ih =>
    intro off len g hn h1 h2 h3
    have app : ∀ (l : List Acc), (∀ a ∈ l, a.1 + a.2 ≤ n + 8) → ∀ a ∈ g.log ++ l, a.1 + a.2 ≤ n + 8 := by
      intro l hl a ha
      rcases List.mem_append.1 ha with ha | ha
      · exact h1 a ha
      · exact hl a ha
    unfold msgLoop
    split
    · exact ⟨h1, rfl, h2, h3⟩
    · simp only
      have l1 : ∀ a ∈ g.log ++ [(off, 4)], a.1 + a.2 ≤ n + 8 := app _ (by
        intro a ha; simp only [List.mem_singleton] at ha; subst ha; simp only; omega)
      have l2 : ∀ a ∈ g.log ++ [(off, 4)] ++ [(off + 4, 2)], a.1 + a.2 ≤ n + 8 := by
        rw [List.append_assoc]
        apply app
        intro a ha; simp only [List.mem_append, List.mem_singleton] at ha
        rcases ha with rfl | rfl <;> simp only <;> omega
      split
      · exact ⟨l1, rfl, h2, h3⟩
      · rename_i hnl
        split
        · exact ⟨l2, rfl, h2, h3⟩
        · have ha4 := align4_ge (u32 b off)
          split
          · have R := routeMsg_log b off (u32 b off) { g with log := g.log ++ [(off, 4)] ++ [(off + 4, 2)] }
            have := ih (off + align4 (u32 b off)) (len - align4 (u32 b off))
              (routeMsg b off (u32 b off) { g with log := g.log ++ [(off, 4)] ++ [(off + 4, 2)] }) (by omega)
              (by
                intro a ha
                rcases R.1 a ha with h | h
                · exact l2 a h
                · omega)
              (by
                intro o ho
                rcases R.2.2.1 o ho with h | h
                · exact h2 o h
                · omega)
              (by
                intro o ho
                rcases R.2.2.2 o ho with h | h
                · exact h3 o h
                · omega)
            exact ⟨this.1, this.2.1.trans R.2.1, this.2.2⟩
          · have := ih (off + align4 (u32 b off)) (len - align4 (u32 b off))
              { g with log := g.log ++ [(off, 4)] ++ [(off + 4, 2)] } (by omega) l2 h2 h3
            exact this

/-- C148, the route dump, for any datagrams: no read while going through a datagram is more than 8 bytes
    beyond what was received, and at the end the interface index and the length of the gateway are read at
    most 4 bytes beyond the buffer. Partial: the reads must not go beyond at all (`C148_route_short`), and
    the number of bytes copied to the gateway is not bounded by its size (`C148_gateway_overflow`). -/
theorem C148_route_partial (af : Nat) (junk : Mem) (rs : List (Option (List Byte))) (d : DefRoute)
    (h : getDefaultRt af junk rs = some (some d)) :
    (∀ x ∈ d.out, x.1.1 + x.1.2 ≤ x.2 + 8 ∧ x.2 ≤ BUF) ∧
    (∀ a ∈ d.log, a.1 + min a.2 4 ≤ BUF + 4) := by
  have key : ∀ (rs : List (Option (List Byte))) (b : Mem) (g : G), g.log = [] →
      (∀ x ∈ g.out, x.1.1 + x.1.2 ≤ x.2 + 8 ∧ x.2 ≤ BUF) → (∀ o, g.oif = some o → o + 4 ≤ BUF) →
      (∀ o, g.gw = some o → o + 4 ≤ BUF) → ∀ b' g', recvLoop rs b g = some (b', g') →
      (∀ x ∈ g'.out, x.1.1 + x.1.2 ≤ x.2 + 8 ∧ x.2 ≤ BUF) ∧ (∀ o, g'.oif = some o → o + 4 ≤ BUF) ∧
      (∀ o, g'.gw = some o → o + 4 ≤ BUF) := by
    intro rs
    induction rs with
    | nil => intro b g _ _ _ _ b' g' he; simp [recvLoop] at he
    | cons r rs ih =>
      intro b g h1 h2 h3 h4 b' g' he
      match r with
      | none =>
        simp only [recvLoop, Option.some.injEq, Prod.mk.injEq] at he
        obtain ⟨-, rfl⟩ := he; exact ⟨h2, h3, h4⟩
      | some dd =>
        unfold recvLoop at he
        split at he
        · simp only [Option.some.injEq, Prod.mk.injEq] at he
          obtain ⟨-, rfl⟩ := he; exact ⟨h2, h3, h4⟩
        · simp only at he
          have hm : max (min dd.length BUF) BUF = BUF := by omega
          have M := msgLoop_log (fill b dd) (min dd.length BUF) (min dd.length BUF + 1) 0 (min dd.length BUF : Nat) g
            (by omega) (by simp [h1]) (by rw [hm]; exact h3) (by rw [hm]; exact h4)
          rw [hm] at M
          have ho : ∀ x ∈ (msgLoop (fill b dd) (min dd.length BUF + 1) 0 (min dd.length BUF : Nat) g).1.out ++
              beyond (min dd.length BUF) (msgLoop (fill b dd) (min dd.length BUF + 1) 0 (min dd.length BUF : Nat) g).1.log,
              x.1.1 + x.1.2 ≤ x.2 + 8 ∧ x.2 ≤ BUF := by
            intro x hx
            rcases List.mem_append.1 hx with hx | hx
            · rw [M.2.1] at hx; exact h2 x hx
            · simp only [beyond, List.mem_map] at hx
              obtain ⟨a, ha, rfl⟩ := hx
              have := M.1 a (List.mem_filter.1 ha).1
              exact ⟨this, by simp only; omega⟩
          split at he
          · simp only [Option.some.injEq, Prod.mk.injEq] at he
            obtain ⟨-, rfl⟩ := he
            exact ⟨ho, M.2.2.1, M.2.2.2⟩
          · exact ih (fill b dd) { (msgLoop (fill b dd) (min dd.length BUF + 1) 0 (min dd.length BUF : Nat) g).1 with log := [], out := _ }
              rfl ho M.2.2.1 M.2.2.2 b' g' he
  unfold getDefaultRt at h
  simp only [Option.map_eq_some_iff] at h
  obtain ⟨⟨b', g'⟩, h1, h2⟩ := h
  obtain ⟨k1, k2, k3⟩ := key rs junk G.init rfl (by simp [G.init]) (by simp [G.init]) (by simp [G.init]) b' g' h1
  simp only [finish] at h2
  split at h2
  · simp at h2
  · rename_i o ho
    simp only [Option.some.injEq] at h2
    subst h2
    refine ⟨k1, ?_⟩
    intro a ha
    have := k2 o ho
    simp only [List.mem_cons] at ha
    rcases ha with rfl | ha
    · simp only; omega
    · cases hg : g'.gw with
      | none => simp [hg] at ha
      | some q =>
        have := k3 q hg
        simp only [hg, List.mem_cons, List.not_mem_nil, or_false] at ha
        rcases ha with rfl | rfl <;> simp only <;> omega

/-- C148 fails: after a good route, a RTM_NEWROUTE message that is only a header (16 bytes, at the end of the
    datagram) makes the code read 8 bytes further; at the end of a full buffer that is outside of it. -/
theorem C148_route_short :
    (getDefaultRt 2 (fun _ => 0) [some (Spec.datagram [rtDef] ++ Spec.message hd0 24 []), some (Spec.message hd0 3 [])]).map
      (Option.map DefRoute.out) = some (some [((75, 1), 68)]) ∧
    (getDefaultRt 2 (fun _ => 0) [some (Spec.datagram [rtDef] ++ Spec.message hd0 1 (List.replicate 16300 0) ++
      Spec.message hd0 24 []), some (Spec.message hd0 3 [])]).map (Option.map DefRoute.out) =
      some (some [((16391, 1), 16384)]) := by
  constructor <;> decide +kernel

/-- C148 fails: a gateway attribute of 100 bytes is copied whole to the gateway address, of which only 24
    bytes are left in the structure. -/
theorem C148_gateway_overflow :
    (getDefaultRt 2 (fun _ => 0) [some (Spec.datagram [.route hd0 ⟨2, 0, 0, 0, 254, 16, 0, 1, 0,
        [⟨4, [2, 0, 0, 0]⟩, ⟨5, List.replicate 100 65⟩]⟩]), some (Spec.message hd0 3 [])]).map
      (Option.map fun d => d.gw.map List.length) = some (some (some 100)) ∧ gwRoom 2 < 100 := by
  constructor <;> decide +kernel

end Verif.Netlink
