import Verif.MarshalProps

/-!
# Forwarding: what was decoded can be encoded again

C226. Nothing new is modelled: `marshal` and `unmarshal` are the models of `_____marshal`
(lib/marshalling.c:310-575) and `_____unmarshal` (621-970) of `Verif.Marshal`. Where `Verif.MarshalProps` starts
from an object, this file starts from the bytes: whatever was sent, by whatever program, if it is accepted ...
-/

namespace Verif.MarshalFwd
open Verif.Marshal Verif.Marshal.Spec

section Spec

/-- `Rewritten a b`: `b` is `a`, except that bytes that are not 0 may have become 1. Belongs to the model of lib/marshalling.c:310-575. -/
inductive Rewritten : List Byte → List Byte → Prop where
  | nil : Rewritten [] []
  | same {x a b} : Rewritten a b → Rewritten (x :: a) (x :: b)
  | flag {x a b} : x ≠ 0 → Rewritten a b → Rewritten (x :: a) (1 :: b)

/-- no descriptor has a flag byte (pointers and strings have one). Belongs to the model of lib/marshalling.c:310-575. -/
def NoFlags (env : Env) : Prop := ∀ t, env t ≠ .string ∧ ∀ c, env t ≠ .pointer c

/-- no descriptor holds text that ends at a NUL. Belongs to the model of lib/marshalling.c:310-575. -/
def NoText (env : Env) : Prop := ∀ t, env t ≠ .string ∧ ∀ cap, env t ≠ .bytesNil cap

/-- the elements of every dynamic array have a type. Belongs to the model of lib/marshalling.c:310-575. -/
def Described (env : Env) : Prop := ∀ t c, env t = .dynArray c → Known env c

end Spec

theorem Rewritten.refl : ∀ a, Rewritten a a
  | [] => .nil
  | _ :: a => .same (Rewritten.refl a)

theorem Rewritten.append {a b c d : List Byte} (h1 : Rewritten a b) (h2 : Rewritten c d) : Rewritten (a ++ c) (b ++ d) := by
  induction h1 with
  | nil => exact h2
  | same _ ih => exact .same ih
  | flag hx _ ih => exact .flag hx ih

theorem Rewritten.length {a b : List Byte} (h : Rewritten a b) : b.length = a.length := by
  induction h <;> simp_all

/-! ## Integers -/

theorem leBytes_ofLe : ∀ bs : List Byte, leBytes bs.length (ofLe bs) = bs
  | [] => rfl
  | b :: bs => by
    have hb : b.toNat < 256 := UInt8.toNat_lt b
    have h1 : (b.toNat + 256 * ofLe bs) % 256 = b.toNat := by omega
    have h2 : (b.toNat + 256 * ofLe bs) / 256 = ofLe bs := by omega
    simp only [List.length_cons, ofLe, leBytes, h1, h2, leBytes_ofLe bs]
    simp

theorem hostBytes_ofHost (be : Bool) (bs : List Byte) : hostBytes be bs.length (ofHost be bs) = bs := by
  unfold hostBytes ofHost
  cases be with
  | false => simp [leBytes_ofLe]
  | true =>
    have := leBytes_ofLe bs.reverse
    simp only [List.length_reverse] at this
    simp [this]

/-! ## get_type_size -/

theorem sizeOk_known {env : Env} (f : Nat) : ∀ {t : Nat}, sizeOk env f t = some true → Known env t := by
  induction f with
  | zero => intro t h; simp [sizeOk] at h
  | succ f ih =>
    intro t h
    rw [sizeOk] at h
    cases he : env t <;> rw [he] at h <;> simp only at h
    case reference c => exact .ref he (ih h)
    case fixedArray n c => exact .fixed he (ih h)
    case varArray n c => exact .var he (ih h)
    case unknown => simp at h
    all_goals exact .leaf (by simp [he]) (by simp [he]) (by simp [he]) (by simp [he])

/-! ## Reading from one segment -/

theorem get_one {s : List Byte} {n m : Nat} {bs : List Byte} {c' : Chain} (h : get [s] n = .ok (bs, c', m)) :
    ∃ r, s = bs ++ r ∧ c' = [r] ∧ m = n ∧ bs.length = n := by
  have hl := get_length h
  unfold Verif.Marshal.get at h
  rw [getBytes_one] at h
  split at h
  · simp only [Out.bind, Out.ok.injEq, Prod.mk.injEq] at h
    obtain ⟨rfl, rfl, rfl⟩ := h
    exact ⟨_, by simp, rfl, rfl, hl⟩
  · simp [Out.bind] at h

theorem strSize_one {s : List Byte} {n : Nat} (h : strSize [s] = .ok n) :
    ∃ z r, s = z ++ [0] ++ r ∧ 0 ∉ z ∧ n = z.length + 1 := by
  rw [strSize_single] at h
  cases hf : s.findIdx? (· == 0) with
  | none => rw [hf] at h; simp at h
  | some i =>
    rw [hf] at h
    simp only [Out.ok.injEq] at h
    rw [List.findIdx?_eq_some_iff_getElem] at hf
    obtain ⟨hi, h1, h2⟩ := hf
    refine ⟨s.take i, s.drop (i + 1), ?_, ?_, by simp; omega⟩
    · have hz : s[i] = 0 := by simpa using h1
      have := List.take_append_drop i s
      rw [List.drop_eq_getElem_cons hi, hz] at this
      simpa using this.symm
    · intro hm
      obtain ⟨j, hj, hz⟩ := List.getElem_of_mem hm
      simp only [List.length_take] at hj
      have h3 := h2 j (by omega)
      simp only [List.getElem_take] at hz
      simp [hz] at h3

/-- What an accepted reading of `s` as the item says: `p` was read, it alone decides, and it is, up to flags,
    the wire form of what was read. Belongs to the model of lib/marshalling.c:310-575. -/
def Canon (be : Bool) (env : Env) {α : Type} (g : Chain → Unm α) (it : α → Item) (s : List Byte) (v : α) (c' : Chain) (n : Nat) : Prop :=
  ∃ p r bs, s = p ++ r ∧ c' = [r] ∧ p.length = n ∧ Reads g p v ∧ Wire be env (it v) bs ∧ Rewritten p bs ∧ (NoFlags env → p = bs)

theorem reads_then {β γ : Type} {G : Chain → Unm γ} {b1 b2 : List Byte} {k : Chain → Unm β} {b : β} (w : β → γ)
    (h1 : ∀ rest, G [b1 ++ rest] = (k [rest]).bind fun (b, c', m) => .ok (w b, c', b1.length + m))
    (h2 : ∀ p, Cut p b1 → G [p] = .err .emsgsize) (h3 : Reads k b2 b) : Reads G (b1 ++ b2) (w b) := by
  constructor
  · intro rest
    simp only [List.append_assoc, h1, h3.1, Out.bind, List.length_append]
  · intro p hp
    rcases cut_append hp with hp | ⟨p', rfl, hq⟩
    · exact h2 p hp
    · simp only [h1, h3.2 p' hq, Out.bind]

theorem get_reads {b : List Byte} {n : Nat} (h : b.length = n) :
    (∀ rest, get [b ++ rest] n = .ok (b, [rest], n)) ∧ ∀ p, Cut p b → get [p] n = .err .emsgsize := by
  have := reads_get b n h
  refine ⟨fun rest => ?_, this.2⟩
  have h1 := this.1 rest
  rwa [h] at h1

theorem unmarshal_canon {be : Bool} {env : Env} (hd : Described env) (f : Nat) : ∀ (t : Nat) (s : List Byte) (v : Val) (c' : Chain) (n : Nat),
    (s.length < 65536 ∨ NoText env) → unmarshal be true env f t [s] = .ok (v, c', n) →
    Canon be env (unmarshal be true env f t) (.obj t) s v c' n := by
  have h216 : (256 : Nat) ^ 2 = 65536 := rfl
  induction f with
  | zero => intro t s v c' n _ h; simp [unmarshal] at h
  | succ f ih =>
    have hel : ∀ (t k : Nat) (s : List Byte) (vs : List Val) (c' : Chain) (n : Nat), (s.length < 65536 ∨ NoText env) →
        uElems (unmarshal be true env f t) k [s] = .ok (vs, c', n) →
        Canon be env (uElems (unmarshal be true env f t) k) (.elems t) s vs c' n ∧ vs.length = k := by
      intro t k
      induction k with
      | zero =>
        intro s vs c' n _ h
        simp only [uElems, Out.ok.injEq, Prod.mk.injEq] at h
        obtain ⟨rfl, rfl, rfl⟩ := h
        exact ⟨⟨[], s, [], rfl, rfl, rfl, (reads_nil []).congr fun c => rfl, .noElems, .nil, fun _ => rfl⟩, rfl⟩
      | succ k ihk =>
        intro s vs c' n hs h
        rw [uElems] at h
        replace h := bind_ok h; obtain ⟨⟨v1, c1, n1⟩, h1, h⟩ := h
        replace h := bind_ok h; obtain ⟨⟨v2, c2, n2⟩, h2, h⟩ := h
        simp only [Out.ok.injEq, Prod.mk.injEq] at h
        obtain ⟨p1, r1, b1, rfl, rfl, rfl, g1, w1, q1, e1⟩ := ih _ _ _ _ _ hs h1
        have hs' : r1.length < 65536 ∨ NoText env := hs.imp (fun h => by simp only [List.length_append] at h; omega) id
        obtain ⟨⟨p2, r2, b2, rfl, rfl, rfl, g2, w2, q2, e2⟩, hl⟩ := ihk _ _ _ _ hs' h2
        obtain ⟨rfl, rfl, rfl⟩ := h
        exact ⟨⟨p1 ++ p2, r2, b1 ++ b2, by simp, rfl, by simp,
          (reads_seq (k := fun _ => uElems (unmarshal be true env f t) k) (w := List.cons) g1 g2).congr fun c => by rw [uElems],
          .elem w1 w2, q1.append q2, fun hn => by rw [e1 hn, e2 hn]⟩, by simp [hl]⟩
    have hfl : ∀ (fs : List Field) (prev : List Val) (s : List Byte) (vs : List Val) (c' : Chain) (n : Nat),
        (s.length < 65536 ∨ NoText env) → uFields (unmarshal be true env f) fs prev [s] = .ok (vs, c', n) →
        Canon be env (uFields (unmarshal be true env f) fs prev) (.fields fs prev) s vs c' n := by
      intro fs
      induction fs with
      | nil =>
        intro prev s vs c' n _ h
        simp only [uFields, Out.ok.injEq, Prod.mk.injEq] at h
        obtain ⟨rfl, rfl, rfl⟩ := h
        exact ⟨[], s, [], rfl, rfl, rfl, (reads_nil []).congr fun c => rfl, .noFields, .nil, fun _ => rfl⟩
      | cons fd fs ihf =>
        intro prev s vs c' n hs h
        rw [uFields] at h
        split at h
        · rename_i hp
          replace h := bind_ok h; obtain ⟨⟨v1, c1, n1⟩, h1, h⟩ := h
          replace h := bind_ok h; obtain ⟨⟨v2, c2, n2⟩, h2, h⟩ := h
          simp only [Out.ok.injEq, Prod.mk.injEq] at h
          obtain ⟨p1, r1, b1, rfl, rfl, rfl, g1, w1, q1, e1⟩ := ih _ _ _ _ _ hs h1
          have hs' : r1.length < 65536 ∨ NoText env := hs.imp (fun h => by simp only [List.length_append] at h; omega) id
          obtain ⟨p2, r2, b2, rfl, rfl, rfl, g2, w2, q2, e2⟩ := ihf _ _ _ _ _ hs' h2
          obtain ⟨rfl, rfl, rfl⟩ := h
          exact ⟨p1 ++ p2, r2, b1 ++ b2, by simp, rfl, by simp,
            (reads_seq (k := fun v => uFields (unmarshal be true env f) fs (prev ++ [v])) (w := List.cons) g1 g2).congr fun c => by
              rw [uFields, if_pos hp],
            .field ((have_iff _ _).1 hp) w1 w2, q1.append q2, fun hn => by rw [e1 hn, e2 hn]⟩
        · rename_i hp
          replace h := bind_ok h; obtain ⟨⟨v2, c2, n2⟩, h2, h⟩ := h
          simp only [Out.ok.injEq, Prod.mk.injEq] at h
          obtain ⟨p2, r2, b2, rfl, rfl, rfl, g2, w2, q2, e2⟩ := ihf _ _ _ _ _ hs h2
          obtain ⟨rfl, rfl, rfl⟩ := h
          exact ⟨p2, r2, b2, rfl, rfl, rfl,
            (reads_map (w := fun vs => Val.absent :: vs) g2).congr fun c => by rw [uFields, if_neg hp],
            .absentField (fun hc => hp ((have_iff _ _).2 hc)) w2, q2, e2⟩
    intro t s v c' n hs h
    rw [unmarshal] at h
    cases he : env t with
    | void =>
      rw [he] at h; simp only [Out.ok.injEq, Prod.mk.injEq] at h
      obtain ⟨rfl, rfl, rfl⟩ := h
      exact ⟨[], s, [], rfl, rfl, rfl, (reads_nil _).congr fun c => by simp only [unmarshal, he], .void he, .nil, fun _ => rfl⟩
    | int k =>
      rw [he] at h
      replace h := bind_ok h; obtain ⟨⟨b, c1, n1⟩, h1, h⟩ := h
      simp only [Out.ok.injEq, Prod.mk.injEq] at h
      obtain ⟨r, rfl, rfl, rfl, hl⟩ := get_one h1
      obtain ⟨rfl, rfl, rfl⟩ := h
      have hw : Wire be env (.obj t (.num (ofHost be b))) (hostBytes be n1 (ofHost be b)) :=
        .int he (by rw [← hl]; exact ofHost_lt be b)
      have hb : hostBytes be n1 (ofHost be b) = b := by rw [← hl]; exact hostBytes_ofHost be b
      rw [hb] at hw
      exact ⟨b, r, b, rfl, rfl, hl, (reads_map (w := fun b => Val.num (ofHost be b)) (reads_get _ _ hl)).congr fun c => by
        simp only [unmarshal, he], hw, .refl _, fun _ => rfl⟩
    | raw k =>
      rw [he] at h
      replace h := bind_ok h; obtain ⟨⟨b, c1, n1⟩, h1, h⟩ := h
      simp only [Out.ok.injEq, Prod.mk.injEq] at h
      obtain ⟨r, rfl, rfl, rfl, hl⟩ := get_one h1
      obtain ⟨rfl, rfl, rfl⟩ := h
      exact ⟨b, r, b, rfl, rfl, hl, (reads_map (w := Val.bytes) (reads_get _ _ hl)).congr fun c => by simp only [unmarshal, he],
        .raw he hl, .refl _, fun _ => rfl⟩
    | fixedBytes k =>
      rw [he] at h
      replace h := bind_ok h; obtain ⟨⟨b, c1, n1⟩, h1, h⟩ := h
      simp only [Out.ok.injEq, Prod.mk.injEq] at h
      obtain ⟨r, rfl, rfl, rfl, hl⟩ := get_one h1
      obtain ⟨rfl, rfl, rfl⟩ := h
      exact ⟨b, r, b, rfl, rfl, hl, (reads_map (w := Val.bytes) (reads_get _ _ hl)).congr fun c => by simp only [unmarshal, he],
        .fixedBytes he hl, .refl _, fun _ => rfl⟩
    | pointer ch =>
      rw [he] at h
      dsimp only at h
      rw [if_neg (by simp)] at h
      replace h := bind_ok h; obtain ⟨⟨b, c1, n1⟩, h1, h⟩ := h
      dsimp only at h
      obtain ⟨r, rfl, rfl, rfl, hl⟩ := get_one h1
      obtain ⟨x, rfl⟩ : ∃ x, b = [x] := List.length_eq_one_iff.1 hl
      obtain ⟨hg1, hg2⟩ := get_reads (b := [x]) (n := 1) rfl
      split at h
      · rename_i hx
        simp only [List.cons.injEq, and_true] at hx; subst hx
        simp only [Out.ok.injEq, Prod.mk.injEq] at h
        obtain ⟨rfl, rfl, rfl⟩ := h
        refine ⟨[0], r, [0], rfl, rfl, rfl, ?_, .null he, .refl _, fun _ => rfl⟩
        refine ⟨fun rest => ?_, fun p hp => ?_⟩
        · simp only [unmarshal, he, hg1, Out.bind]; simp
        · simp only [unmarshal, he, hg2 p hp, Out.bind]; simp
      · rename_i hx
        split at h
        · simp at h
        · simp at h
        · rename_i hk
          replace h := bind_ok h; obtain ⟨⟨v2, c2, n2⟩, h2, h⟩ := h
          simp only [Out.ok.injEq, Prod.mk.injEq] at h
          have hs' : r.length < 65536 ∨ NoText env := hs.imp (fun h => by simp only [List.length_append] at h; omega) id
          obtain ⟨p2, r2, b2, rfl, rfl, rfl, g2, w2, q2, e2⟩ := ih _ _ _ _ _ hs' h2
          obtain ⟨rfl, rfl, rfl⟩ := h
          refine ⟨[x] ++ p2, r2, 1 :: b2, by simp, rfl, by simp; omega, ?_, .ptr he (sizeOk_known _ hk) w2,
            .flag (by rintro rfl; exact hx rfl) q2, fun hn => absurd he ((hn t).2 ch)⟩
          refine reads_then (fun v => Val.ptr (some v)) (fun rest => ?_) (fun p hp => ?_) g2
          · simp only [unmarshal, he, hg1, Out.bind, if_neg hx, hk]; simp
          · simp only [unmarshal, he, hg2 p hp, Out.bind]; simp
    | reference ch =>
      rw [he] at h
      obtain ⟨p2, r2, b2, rfl, rfl, rfl, g2, w2, q2, e2⟩ := ih _ _ _ _ _ hs h
      exact ⟨p2, r2, b2, rfl, rfl, rfl, g2.congr fun c => by simp only [unmarshal, he], .ref he w2, q2, e2⟩
    | string =>
      have hs0 : s.length < 65536 := by
        rcases hs with hs | hs
        · exact hs
        · exact absurd he (hs t).1
      rw [he] at h
      dsimp only at h
      rw [if_neg (by simp)] at h
      replace h := bind_ok h; obtain ⟨⟨b, c1, n1⟩, h1, h⟩ := h
      dsimp only at h
      obtain ⟨r, rfl, rfl, rfl, hl⟩ := get_one h1
      obtain ⟨x, rfl⟩ : ∃ x, b = [x] := List.length_eq_one_iff.1 hl
      obtain ⟨hg1, hg2⟩ := get_reads (b := [x]) (n := 1) rfl
      split at h
      · rename_i hx
        simp only [List.cons.injEq, and_true] at hx; subst hx
        simp only [Out.ok.injEq, Prod.mk.injEq] at h
        obtain ⟨rfl, rfl, rfl⟩ := h
        refine ⟨[0], r, [0], rfl, rfl, rfl, ?_, .nullStr he, .refl _, fun _ => rfl⟩
        refine ⟨fun rest => ?_, fun p hp => ?_⟩
        · simp only [unmarshal, he, hg1, Out.bind]; simp
        · simp only [unmarshal, he, hg2 p hp, Out.bind]; simp
      · rename_i hx
        replace h := bind_ok h; obtain ⟨sz, h2, h⟩ := h
        replace h := bind_ok h; obtain ⟨⟨b3, c3, n3⟩, h3, h⟩ := h
        simp only [Out.ok.injEq, Prod.mk.injEq] at h
        obtain ⟨z, r2, rfl, hz, rfl⟩ := strSize_one h2
        simp only [List.length_append, List.length_cons, List.length_nil] at hs0
        have hz2 : z.length + 1 < 65536 := by omega
        rw [Nat.mod_eq_of_lt hz2] at h3
        obtain ⟨r3, hr3, rfl, rfl, hl3⟩ := get_one h3
        obtain ⟨rfl, rfl⟩ := List.append_inj hr3 (by simp [hl3])
        obtain ⟨rfl, rfl, rfl⟩ := h
        rw [cstr_str hz]
        refine ⟨[x] ++ (z ++ [0]), r2, 1 :: (z ++ [0]), by simp, rfl, by simp; omega, ?_, .str he hz2 hz,
          .flag (by rintro rfl; exact hx rfl) (.refl _), fun hn => absurd he (hn t).1⟩
        refine reads_then (fun v => v) (fun rest => ?_) (fun p hp => ?_) (reads_str hz hz2)
        · simp only [unmarshal, he, hg1, if_neg hx]
          rw [if_neg (by simp)]
          simp only [Out.bind]
          rw [if_neg hx]
          cases strSize [rest] with
          | ok sz =>
            dsimp only
            cases get [rest] (sz % 65536) with
            | ok y => rfl
            | _ => rfl
          | _ => rfl
        · simp only [unmarshal, he, hg2 p hp, Out.bind]; simp
    | struct fs =>
      rw [he] at h
      replace h := bind_ok h; obtain ⟨⟨b, c1, n1⟩, h1, h⟩ := h
      simp only [Out.ok.injEq, Prod.mk.injEq] at h
      obtain ⟨p2, r2, b2, rfl, rfl, rfl, g2, w2, q2, e2⟩ := hfl _ _ _ _ _ _ hs h1
      obtain ⟨rfl, rfl, rfl⟩ := h
      exact ⟨p2, r2, b2, rfl, rfl, rfl, (reads_map (w := Val.struct) g2).congr fun c => by simp only [unmarshal, he],
        .struct he w2, q2, e2⟩
    | varBytes cap =>
      rw [he] at h
      replace h := bind_ok h; obtain ⟨⟨b, c1, n1⟩, h1, h⟩ := h
      dsimp only at h
      obtain ⟨r, rfl, rfl, rfl, hl⟩ := get_one h1
      split at h
      · simp at h
      · rename_i hcap
        replace h := bind_ok h; obtain ⟨⟨b2, c2, n2⟩, h2, h⟩ := h
        simp only [Out.ok.injEq, Prod.mk.injEq] at h
        obtain ⟨r2, rfl, rfl, rfl, hl2⟩ := get_one h2
        obtain ⟨rfl, rfl, rfl⟩ := h
        have hlt := ofHost_lt be b
        rw [hl] at hlt
        have hw : Wire be env (.obj t (.bytes b2)) (hostBytes be 2 b2.length ++ b2) := .varBytes he (by omega) (by omega)
        have hb : hostBytes be 2 b2.length = b := by rw [hl2, ← hl]; exact hostBytes_ofHost be b
        rw [hb] at hw
        refine ⟨b ++ b2, r2, b ++ b2, by simp, rfl, by simp [hl, hl2], ?_, hw, .refl _, fun _ => rfl⟩
        obtain ⟨hg1, hg2⟩ := get_reads hl
        refine reads_then (k := fun c => get c (ofHost be b)) Val.bytes (fun rest => ?_) (fun p hp => ?_) (reads_get b2 _ hl2)
        · simp only [unmarshal, he, hg1, Out.bind, if_neg hcap, hl]
        · simp only [unmarshal, he, hg2 p hp, Out.bind]
    | dynBytes =>
      rw [he] at h
      replace h := bind_ok h; obtain ⟨⟨b, c1, n1⟩, h1, h⟩ := h
      dsimp only at h
      obtain ⟨r, rfl, rfl, rfl, hl⟩ := get_one h1
      replace h := bind_ok h; obtain ⟨⟨b2, c2, n2⟩, h2, h⟩ := h
      simp only [Out.ok.injEq, Prod.mk.injEq] at h
      obtain ⟨r2, rfl, rfl, rfl, hl2⟩ := get_one h2
      obtain ⟨rfl, rfl, rfl⟩ := h
      have hlt := ofHost_lt be b
      rw [hl] at hlt
      have hw : Wire be env (.obj t (.bytes b2)) (hostBytes be 2 b2.length ++ b2) := .dynBytes he (by omega)
      have hb : hostBytes be 2 b2.length = b := by rw [hl2, ← hl]; exact hostBytes_ofHost be b
      rw [hb] at hw
      refine ⟨b ++ b2, r2, b ++ b2, by simp, rfl, by simp [hl, hl2], ?_, hw, .refl _, fun _ => rfl⟩
      obtain ⟨hg1, hg2⟩ := get_reads hl
      refine reads_then (k := fun c => get c (ofHost be b)) Val.bytes (fun rest => ?_) (fun p hp => ?_) (reads_get b2 _ hl2)
      · simp only [unmarshal, he, hg1, Out.bind, hl]
      · simp only [unmarshal, he, hg2 p hp, Out.bind]
    | bytesNil cap =>
      have hs0 : s.length < 65536 := by
        rcases hs with hs | hs
        · exact hs
        · exact absurd he ((hs t).2 cap)
      rw [he] at h
      replace h := bind_ok h; obtain ⟨sz, h2, h⟩ := h
      dsimp only at h
      split at h
      · simp at h
      · rename_i hcap
        replace h := bind_ok h; obtain ⟨⟨b3, c3, n3⟩, h3, h⟩ := h
        simp only [Out.ok.injEq, Prod.mk.injEq] at h
        obtain ⟨z, r2, rfl, hz, rfl⟩ := strSize_one h2
        simp only [List.length_append, List.length_cons, List.length_nil] at hs0
        have hz2 : z.length + 1 < 65536 := by omega
        rw [Nat.mod_eq_of_lt hz2] at h3 hcap
        obtain ⟨r3, hr3, rfl, rfl, hl3⟩ := get_one h3
        obtain ⟨rfl, rfl⟩ := List.append_inj hr3 (by simp [hl3])
        obtain ⟨rfl, rfl, rfl⟩ := h
        rw [cstr_str hz]
        have i2 := reads_get (z ++ [0]) (z.length + 1) (by simp)
        refine ⟨z ++ [0], r2, z ++ [0], rfl, rfl, hl3, ⟨fun rest => ?_, fun p hp => ?_⟩,
          .bytesNil he (by omega) hz2 hz, .refl _, fun _ => rfl⟩
        · simp only [unmarshal, he, strSize_str hz, Out.bind, Nat.mod_eq_of_lt hz2, i2.1 rest, cstr_str hz]
          rw [if_neg (by omega)]
        · simp only [unmarshal, he, strSize_cut hz hp, Out.bind]
    | fixedArray k ch =>
      rw [he] at h
      dsimp only at h
      split at h
      · simp at h
      · simp at h
      · rename_i hk
        split at h
        · rename_i hk2
          replace h := bind_ok h; obtain ⟨⟨v2, c2, n2⟩, h2, h⟩ := h
          simp only [Out.ok.injEq, Prod.mk.injEq] at h
          obtain ⟨⟨p2, r2, b2, rfl, rfl, rfl, g2, w2, q2, e2⟩, hl⟩ := hel _ _ _ _ _ _ hs h2
          obtain ⟨rfl, rfl, rfl⟩ := h
          exact ⟨p2, r2, b2, rfl, rfl, rfl, (reads_map (w := Val.arr) g2).congr fun c => by
            simp only [unmarshal, he, hk]; rw [if_pos hk2], .fixedArray he hk2 (sizeOk_known _ hk) hl w2, q2, e2⟩
        · simp at h
    | varArray cap ch =>
      rw [he] at h
      dsimp only at h
      split at h
      · simp at h
      · simp at h
      · rename_i hk
        replace h := bind_ok h; obtain ⟨⟨b, c1, n1⟩, h1, h⟩ := h
        dsimp only at h
        obtain ⟨r, rfl, rfl, rfl, hl⟩ := get_one h1
        split at h
        · simp at h
        · rename_i hcap
          replace h := bind_ok h; obtain ⟨⟨v2, c2, n2⟩, h2, h⟩ := h
          simp only [Out.ok.injEq, Prod.mk.injEq] at h
          have hs' : r.length < 65536 ∨ NoText env := hs.imp (fun h => by simp only [List.length_append] at h; omega) id
          obtain ⟨⟨p2, r2, b2, rfl, rfl, rfl, g2, w2, q2, e2⟩, hl2⟩ := hel _ _ _ _ _ _ hs' h2
          obtain ⟨rfl, rfl, rfl⟩ := h
          have hlt := ofHost_lt be b
          rw [hl] at hlt
          have hw : Wire be env (.obj t (.arr v2)) (hostBytes be 2 v2.length ++ b2) :=
            .varArray he (sizeOk_known _ hk) (by omega) (by omega) w2
          have hb : hostBytes be 2 v2.length = b := by rw [hl2, ← hl]; exact hostBytes_ofHost be b
          rw [hb] at hw
          refine ⟨b ++ p2, r2, b ++ b2, by simp, rfl, by simp [hl], ?_, hw, (Rewritten.refl b).append q2, fun hn => by rw [e2 hn]⟩
          obtain ⟨hg1, hg2⟩ := get_reads hl
          refine reads_then Val.arr (fun rest => ?_) (fun p hp => ?_) g2
          · simp only [unmarshal, he, hk, hg1, Out.bind, if_neg hcap, hl]
          · simp only [unmarshal, he, hk, hg2 p hp, Out.bind]
    | dynArray ch =>
      rw [he] at h
      replace h := bind_ok h; obtain ⟨⟨b, c1, n1⟩, h1, h⟩ := h
      dsimp only at h
      obtain ⟨r, rfl, rfl, rfl, hl⟩ := get_one h1
      have hb0 : hostBytes be 2 (ofHost be b) = b := by have := hostBytes_ofHost be b; rwa [hl] at this
      split at h
      · rename_i hz
        simp only [Out.ok.injEq, Prod.mk.injEq] at h
        obtain ⟨rfl, rfl, rfl⟩ := h
        rw [hz] at hb0
        have hw : Wire be env (.obj t (.arr [])) (hostBytes be 2 0 ++ []) := .dynArray he (hd t ch he) (by simp) .noElems
        rw [hb0, List.append_nil] at hw
        obtain ⟨hg1, hg2⟩ := get_reads hl
        refine ⟨b, r, b, rfl, rfl, hl, ⟨fun rest => ?_, fun p hp => ?_⟩, hw, .refl _, fun _ => rfl⟩
        · simp only [unmarshal, he, hg1, Out.bind, hz, if_true, hl]
        · simp only [unmarshal, he, hg2 p hp, Out.bind]
      · rename_i hz
        split at h
        · simp at h
        · simp at h
        · rename_i hk
          replace h := bind_ok h; obtain ⟨⟨v2, c2, n2⟩, h2, h⟩ := h
          simp only [Out.ok.injEq, Prod.mk.injEq] at h
          have hs' : r.length < 65536 ∨ NoText env := hs.imp (fun h => by simp only [List.length_append] at h; omega) id
          obtain ⟨⟨p2, r2, b2, rfl, rfl, rfl, g2, w2, q2, e2⟩, hl2⟩ := hel _ _ _ _ _ _ hs' h2
          obtain ⟨rfl, rfl, rfl⟩ := h
          have hlt := ofHost_lt be b
          rw [hl] at hlt
          have hw : Wire be env (.obj t (.arr v2)) (hostBytes be 2 v2.length ++ b2) :=
            .dynArray he (sizeOk_known _ hk) (by omega) w2
          have hb : hostBytes be 2 v2.length = b := by rw [hl2, ← hl]; exact hostBytes_ofHost be b
          rw [hb] at hw
          refine ⟨b ++ p2, r2, b ++ b2, by simp, rfl, by simp [hl], ?_, hw, (Rewritten.refl b).append q2, fun hn => by rw [e2 hn]⟩
          obtain ⟨hg1, hg2⟩ := get_reads hl
          refine reads_then Val.arr (fun rest => ?_) (fun p hp => ?_) g2
          · simp only [unmarshal, he, hk, hg1, Out.bind, if_neg hz, hl]
          · simp only [unmarshal, he, hg2 p hp, Out.bind]
    | unknown => rw [he] at h; simp at h

end Verif.MarshalFwd
