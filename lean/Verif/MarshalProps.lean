import Verif.Marshal
/-! Properties C21 (round trip), C22 (truncated data), C23 (segmentation), C24 (counts and capacities). -/
namespace Verif.Marshal

/-! ## Specification: the wire format and the objects it can carry -/
namespace Spec

/-- the descriptor leads to known types only -/
inductive Known (env : Env) : Nat → Prop where
  | ref {t c} : env t = .reference c → Known env c → Known env t
  | fixed {t n c} : env t = .fixedArray n c → Known env c → Known env t
  | var {t n c} : env t = .varArray n c → Known env c → Known env t
  | leaf {t} : (∀ c, env t ≠ .reference c) → (∀ n c, env t ≠ .fixedArray n c) → (∀ n c, env t ≠ .varArray n c) →
      env t ≠ .unknown → Known env t

/-- an object, the remaining fields of a structure (`prev`: the fields before), the elements of an array -/
inductive Item where
  | obj (t : Nat) (v : Val)
  | fields (fs : List Field) (prev vs : List Val)
  | elems (t : Nat) (vs : List Val)

def present (fd : Field) (prev : List Val) : Prop := ∀ p, fd.isHave = some p → p prev = true

/-- `Wire env it bs`: the item is within the limits of its descriptor and its marshalled form is `bs`.
    Limits: at most 65535 bytes, elements or characters (with the NUL) and the declared capacities. -/
inductive Wire (be : Bool) (env : Env) : Item → List Byte → Prop where
  | void {t} : env t = .void → Wire be env (.obj t .unit) []
  | int {t k n} : env t = .int k → n < 256 ^ k → Wire be env (.obj t (.num n)) (hostBytes be k n)
  | raw {t k bs} : env t = .raw k → bs.length = k → Wire be env (.obj t (.bytes bs)) bs
  | null {t c} : env t = .pointer c → Wire be env (.obj t (.ptr none)) [0]
  | ptr {t c v bs} : env t = .pointer c → Known env c → Wire be env (.obj c v) bs → Wire be env (.obj t (.ptr (some v))) (1 :: bs)
  | ref {t c v bs} : env t = .reference c → Wire be env (.obj c v) bs → Wire be env (.obj t v) bs
  | nullStr {t} : env t = .string → Wire be env (.obj t (.str none)) [0]
  | str {t s} : env t = .string → s.length + 1 < 65536 → 0 ∉ s → Wire be env (.obj t (.str (some s))) (1 :: (s ++ [0]))
  | struct {t fs vs bs} : env t = .struct fs → Wire be env (.fields fs [] vs) bs → Wire be env (.obj t (.struct vs)) bs
  | fixedBytes {t n bs} : env t = .fixedBytes n → bs.length = n → Wire be env (.obj t (.bytes bs)) bs
  | varBytes {t cap bs} : env t = .varBytes cap → bs.length ≤ cap → bs.length < 65536 →
      Wire be env (.obj t (.bytes bs)) (hostBytes be 2 bs.length ++ bs)
  | bytesNil {t cap s} : env t = .bytesNil cap → s.length + 1 ≤ cap → s.length + 1 < 65536 → 0 ∉ s →
      Wire be env (.obj t (.str (some s))) (s ++ [0])
  | dynBytes {t bs} : env t = .dynBytes → bs.length < 65536 → Wire be env (.obj t (.bytes bs)) (hostBytes be 2 bs.length ++ bs)
  | fixedArray {t n c vs bs} : env t = .fixedArray n c → n < 65536 → Known env c → vs.length = n → Wire be env (.elems c vs) bs →
      Wire be env (.obj t (.arr vs)) bs
  | varArray {t cap c vs bs} : env t = .varArray cap c → Known env c → vs.length ≤ cap → vs.length < 65536 →
      Wire be env (.elems c vs) bs → Wire be env (.obj t (.arr vs)) (hostBytes be 2 vs.length ++ bs)
  | dynArray {t c vs bs} : env t = .dynArray c → Known env c → vs.length < 65536 → Wire be env (.elems c vs) bs →
      Wire be env (.obj t (.arr vs)) (hostBytes be 2 vs.length ++ bs)
  | noFields {prev} : Wire be env (.fields [] prev []) []
  | field {fd fs prev v vs b bs} : present fd prev → Wire be env (.obj fd.node v) b → Wire be env (.fields fs (prev ++ [v]) vs) bs →
      Wire be env (.fields (fd :: fs) prev (v :: vs)) (b ++ bs)
  | absentField {fd fs prev vs bs} : ¬ present fd prev → Wire be env (.fields fs (prev ++ [.absent]) vs) bs →
      Wire be env (.fields (fd :: fs) prev (.absent :: vs)) bs
  | noElems {t} : Wire be env (.elems t []) []
  | elem {t v vs b bs} : Wire be env (.obj t v) b → Wire be env (.elems t vs) bs → Wire be env (.elems t (v :: vs)) (b ++ bs)

/-- The payload of a chain. -/
def payload (c : Cur) : List Byte := (c.chain.map Seg.data).flatten

/-- Data is added at the end: a segment behind which there is data has no room left. Every segment but the
    first has data (a chain of one segment has both properties). -/
structure Good (c : Cur) : Prop where
  left : ∀ s ∈ c.before, s.room = 0
  packed : (c.cur :: c.after).Pairwise fun a b => b.data ≠ [] → a.room = 0
  used : ∀ s ∈ c.chain.tail, s.data ≠ []

/-- The outcome of a call: the model's outcome for every sufficient recursion depth. -/
def Returns {α : Type} (call : Nat → Out α) (r : Out α) : Prop := r ≠ .more ∧ ∃ f0, ∀ f, f0 ≤ f → call f = r

/-- what a caller of unmarshal observes: the value, the bytes left, the length -/
def seen {α : Type} : Unm α → Out (α × List Byte × Nat)
  | .ok (v, c, n) => .ok (v, c.flatten, n)
  | .err e => .err e
  | .ub => .ub
  | .bogus => .bogus
  | .more => .more

/-- `Fits env it`: the item respects the capacities declared in its descriptor. -/
inductive Fits (env : Env) : Item → Prop where
  | void {t} : env t = .void → Fits env (.obj t .unit)
  | int {t k n} : env t = .int k → n < 256 ^ k → Fits env (.obj t (.num n))
  | raw {t k bs} : env t = .raw k → bs.length = k → Fits env (.obj t (.bytes bs))
  | null {t c} : env t = .pointer c → Fits env (.obj t (.ptr none))
  | ptr {t c v} : env t = .pointer c → Fits env (.obj c v) → Fits env (.obj t (.ptr (some v)))
  | ref {t c v} : env t = .reference c → Fits env (.obj c v) → Fits env (.obj t v)
  /-- a string is allocated with the size received -/
  | str {t v} : env t = .string → Fits env (.obj t v)
  | struct {t fs vs} : env t = .struct fs → Fits env (.fields fs [] vs) → Fits env (.obj t (.struct vs))
  | fixedBytes {t n bs} : env t = .fixedBytes n → bs.length = n → Fits env (.obj t (.bytes bs))
  | varBytes {t cap bs} : env t = .varBytes cap → bs.length ≤ cap → Fits env (.obj t (.bytes bs))
  | bytesNil {t cap s} : env t = .bytesNil cap → s.length + 1 ≤ cap → Fits env (.obj t (.str (some s)))
  /-- the array is filled without a NUL -/
  | bytesNoNil {t cap bs} : env t = .bytesNil cap → bs.length ≤ cap → Fits env (.obj t (.bytes bs))
  | dynBytes {t bs} : env t = .dynBytes → bs.length < 65536 → Fits env (.obj t (.bytes bs))
  | fixedArray {t n c vs} : env t = .fixedArray n c → vs.length = n → Fits env (.elems c vs) → Fits env (.obj t (.arr vs))
  | varArray {t cap c vs} : env t = .varArray cap c → vs.length ≤ cap → Fits env (.elems c vs) → Fits env (.obj t (.arr vs))
  | dynArray {t c vs} : env t = .dynArray c → vs.length < 65536 → Fits env (.elems c vs) → Fits env (.obj t (.arr vs))
  | noFields {prev} : Fits env (.fields [] prev [])
  | field {fd fs prev v vs} : present fd prev → Fits env (.obj fd.node v) → Fits env (.fields fs (prev ++ [v]) vs) →
      Fits env (.fields (fd :: fs) prev (v :: vs))
  | absentField {fd fs prev vs} : ¬ present fd prev → Fits env (.fields fs (prev ++ [.absent]) vs) →
      Fits env (.fields (fd :: fs) prev (.absent :: vs))
  | noElems {t} : Fits env (.elems t [])
  | elem {t v vs} : Fits env (.obj t v) → Fits env (.elems t vs) → Fits env (.elems t (v :: vs))

/-- the segments behind the current one have data -/
def NoEmpty (c : Chain) : Prop := c ≠ [] ∧ ∀ s ∈ c.tail, s ≠ []

end Spec
open Spec

/-! ## Integers -/

theorem leBytes_length (k n : Nat) : (leBytes k n).length = k := by
  induction k generalizing n with
  | zero => rfl
  | succ k ih => simp [leBytes, ih]

theorem ofLe_leBytes (k n : Nat) (h : n < 256 ^ k) : ofLe (leBytes k n) = n := by
  induction k generalizing n with
  | zero => simp at h; subst h; rfl
  | succ k ih =>
    have h1 : n / 256 < 256 ^ k := by rw [Nat.pow_succ] at h; omega
    simp only [leBytes, ofLe, ih _ h1]
    rw [UInt8.toNat_ofNat']
    omega

theorem ofLe_lt (bs : List Byte) : ofLe bs < 256 ^ bs.length := by
  induction bs with
  | nil => simp [ofLe]
  | cons b bs ih =>
    simp only [ofLe, List.length_cons, Nat.pow_succ]
    have := b.toNat_lt
    omega

theorem hostBytes_length (be : Bool) (k n : Nat) : (hostBytes be k n).length = k := by
  unfold hostBytes; split <;> simp [leBytes_length]

theorem ofHost_hostBytes (be : Bool) (k n : Nat) (h : n < 256 ^ k) : ofHost be (hostBytes be k n) = n := by
  unfold ofHost hostBytes; cases be <;> simp [ofLe_leBytes k n h]

theorem ofHost_lt (be : Bool) (bs : List Byte) : ofHost be bs < 256 ^ bs.length := by
  unfold ofHost; split
  · have := ofLe_lt bs.reverse; simpa using this
  · exact ofLe_lt bs

/-! ## get_type_size -/

theorem known_sizeOk {env : Env} {t : Nat} (h : Known env t) : ∃ f0, ∀ f, f0 ≤ f → sizeOk env f t = some true := by
  induction h with
  | @ref t c h1 _ ih =>
    obtain ⟨f0, hf⟩ := ih
    refine ⟨f0 + 1, fun f h => ?_⟩
    obtain ⟨f, rfl⟩ : ∃ g, f = g + 1 := ⟨f - 1, by omega⟩
    simp only [sizeOk, h1]; exact hf f (by omega)
  | @fixed t n c h1 _ ih =>
    obtain ⟨f0, hf⟩ := ih
    refine ⟨f0 + 1, fun f h => ?_⟩
    obtain ⟨f, rfl⟩ : ∃ g, f = g + 1 := ⟨f - 1, by omega⟩
    simp only [sizeOk, h1]; exact hf f (by omega)
  | @var t n c h1 _ ih =>
    obtain ⟨f0, hf⟩ := ih
    refine ⟨f0 + 1, fun f h => ?_⟩
    obtain ⟨f, rfl⟩ : ∃ g, f = g + 1 := ⟨f - 1, by omega⟩
    simp only [sizeOk, h1]; exact hf f (by omega)
  | @leaf t h1 h2 h3 h4 =>
    refine ⟨1, fun f h => ?_⟩
    obtain ⟨f, rfl⟩ : ∃ g, f = g + 1 := ⟨f - 1, by omega⟩
    simp only [sizeOk]

/-! ## The chain while marshalling -/

def dataOf (l : List Seg) : List Byte := (l.map Seg.data).flatten

theorem dataOf_append (a b : List Seg) : dataOf (a ++ b) = dataOf a ++ dataOf b := by simp [dataOf]
theorem dataOf_cons (s : Seg) (l : List Seg) : dataOf (s :: l) = s.data ++ dataOf l := by simp [dataOf]

theorem freshSegs_data (bs : List Byte) : dataOf (freshSegs bs) = bs := by
  induction h : bs.length using Nat.strongRecOn generalizing bs with
  | ind n ih =>
    rw [freshSegs]
    split
    · rename_i hb; subst hb; rfl
    · rename_i hb
      have hpos : 0 < bs.length := List.length_pos_iff.2 hb
      rw [dataOf_cons, ih (bs.drop PKT).length (by simp only [List.length_drop, PKT]; omega) _ rfl]
      simp

/-- every fresh segment has data, and room is left in the last one only -/
theorem freshSegs_good (bs : List Byte) : (∀ s ∈ freshSegs bs, s.data ≠ []) ∧
    (freshSegs bs).Pairwise (fun a _ => a.room = 0) := by
  induction h : bs.length using Nat.strongRecOn generalizing bs with
  | ind n ih =>
    rw [freshSegs]
    split
    · simp
    · rename_i hb
      have hpos : 0 < bs.length := List.length_pos_iff.2 hb
      obtain ⟨i1, i2⟩ := ih (bs.drop PKT).length (by simp only [List.length_drop, PKT]; omega) _ rfl
      constructor
      · intro s hs
        rcases List.mem_cons.1 hs with rfl | hs
        · intro hc
          have := congrArg List.length hc
          simp only [List.length_take, List.length_nil, PKT] at this; omega
        · exact i1 s hs
      · rw [List.pairwise_cons]
        refine ⟨?_, i2⟩
        intro b hbm
        show PKT - bs.length = 0
        have : bs.drop PKT ≠ [] := by
          intro hc; rw [hc, freshSegs] at hbm; simp at hbm
        have : 0 < (bs.drop PKT).length := by
          cases hx : bs.drop PKT with
          | nil => exact absurd hx this
          | cons _ _ => simp
        simp only [List.length_drop] at this; omega

theorem putSegs_head (s : Seg) (rest : List Seg) (bs : List Byte) :
    ∃ z n, putSegs s rest bs = (s.fill bs :: z, n) := by
  rw [putSegs.eq_def]
  dsimp only
  split
  · exact ⟨_, _, rfl⟩
  · split <;> exact ⟨_, _, rfl⟩

/-- what `putSegs` achieves -/
theorem putSegs_spec (rest : List Seg) : ∀ (s : Seg) (bs : List Byte),
    (s :: rest).Pairwise (fun a b => b.data ≠ [] → a.room = 0) →
    let r := putSegs s rest bs
    dataOf r.1 = dataOf (s :: rest) ++ bs ∧ r.2 < r.1.length ∧
    (∀ x ∈ r.1.take r.2, x.room = 0) ∧
    r.1.Pairwise (fun a b => b.data ≠ [] → a.room = 0) ∧
    ((∀ x ∈ rest, x.data ≠ []) → ∀ x ∈ r.1.tail, x.data ≠ []) := by
  induction rest with
  | nil =>
    intro s bs hp
    rw [putSegs]
    by_cases h : bs.length ≤ s.room
    · rw [if_pos h]
      refine ⟨?_, by simp, by simp, by simp, by simp⟩
      simp [dataOf, Seg.fill, List.take_of_length_le h]
    · rw [if_neg h]
      dsimp only
      have hg := freshSegs_good (bs.drop s.room)
      have h0 : (s.fill bs).room = 0 := by simp [Seg.fill]; omega
      refine ⟨?_, by simp, ?_, ?_, ?_⟩
      · rw [dataOf_cons, freshSegs_data, dataOf_cons]
        simp [Seg.fill, dataOf]
      · intro x hx
        have hlen : (freshSegs (bs.drop s.room)).length = (s.fill bs :: freshSegs (bs.drop s.room)).length - 1 := by simp
        rw [hlen, ← List.dropLast_eq_take] at hx
        have hpw : (s.fill bs :: freshSegs (bs.drop s.room)).Pairwise (fun a _ => a.room = 0) := by
          rw [List.pairwise_cons]; exact ⟨fun _ _ => h0, hg.2⟩
        -- an element of dropLast has a successor
        have key : ∀ (l : List Seg), l.Pairwise (fun a _ => a.room = 0) → ∀ x ∈ l.dropLast, x.room = 0 := by
          intro l
          induction l with
          | nil => intro _ x hx; simp at hx
          | cons a l ih =>
            intro hl x hx
            cases l with
            | nil => simp at hx
            | cons b l =>
              rw [List.dropLast_cons_cons] at hx
              rw [List.pairwise_cons] at hl
              rcases List.mem_cons.1 hx with rfl | hx
              · exact hl.1 b (by simp)
              · exact ih hl.2 x hx
        exact key _ hpw x hx
      · rw [List.pairwise_cons]
        refine ⟨fun _ _ _ => h0, ?_⟩
        exact List.Pairwise.imp (fun {a b} h (_ : b.data ≠ []) => h) hg.2
      · intro _ x hx
        exact hg.1 x hx
  | cons s' rest ih =>
    intro s bs hp
    rw [putSegs]
    by_cases h : bs.length ≤ s.room
    · rw [if_pos h]
      rw [List.pairwise_cons] at hp
      dsimp only
      by_cases hb : bs = []
      · subst hb
        have : s.fill [] = s := by simp [Seg.fill]
        rw [this]
        refine ⟨by simp, by simp, by simp, ?_, fun h => h⟩
        rw [List.pairwise_cons]; exact hp
      · -- the segment has room, so there is no data behind it
        have hroom : s.room ≠ 0 := by
          have : 0 < bs.length := by cases bs <;> simp_all
          omega
        have hno : ∀ x ∈ s' :: rest, x.data = [] := by
          intro x hx
          by_cases hd : x.data = []
          · exact hd
          · exact absurd (hp.1 x hx hd) hroom
        have hz : dataOf (s' :: rest) = [] := by
          unfold dataOf
          rw [List.flatten_eq_nil_iff]
          intro l hl
          obtain ⟨x, hx, rfl⟩ := List.mem_map.1 hl
          exact hno x hx
        refine ⟨?_, by simp, by simp, ?_, fun h => h⟩
        · rw [dataOf_cons s, dataOf_cons (s.fill bs), hz]
          simp [Seg.fill, List.take_of_length_le h]
        · rw [List.pairwise_cons]
          exact ⟨fun x hx hd => absurd (hno x hx) hd, hp.2⟩
    · rw [if_neg h]
      dsimp only
      have h0 : (s.fill bs).room = 0 := by simp [Seg.fill]; omega
      rw [List.pairwise_cons] at hp
      obtain ⟨i1, i2, i3, i4, i5⟩ := ih s' (bs.drop s.room) hp.2
      have hz : s.room ≠ 0 → dataOf (s' :: rest) = [] := by
        intro hroom
        unfold dataOf
        rw [List.flatten_eq_nil_iff]
        intro l hl
        obtain ⟨x, hx, rfl⟩ := List.mem_map.1 hl
        by_cases hd : x.data = []
        · exact hd
        · exact absurd (hp.1 x hx hd) hroom
      refine ⟨?_, by simp; omega, ?_, ?_, ?_⟩
      · rw [dataOf_cons, i1, dataOf_cons (l := s' :: rest)]
        by_cases hroom : s.room = 0
        · simp [Seg.fill, hroom]
        · rw [hz hroom]
          simp [Seg.fill]
      · intro x hx
        simp only [List.take_succ_cons] at hx
        rcases List.mem_cons.1 hx with rfl | hx
        · exact h0
        · exact i3 x hx
      · rw [List.pairwise_cons]
        exact ⟨fun _ _ _ => h0, i4⟩
      · intro hall x hx
        have hall' := i5 fun x hx => hall x (List.mem_cons_of_mem _ hx)
        -- the first of the following segments keeps or gets data
        have hne : (putSegs s' rest (bs.drop s.room)).1 ≠ [] := by
          intro hc; rw [hc] at i2; simp at i2
        obtain ⟨y, l, hl⟩ : ∃ y l, (putSegs s' rest (bs.drop s.room)).1 = y :: l := by
          cases hc : (putSegs s' rest (bs.drop s.room)).1 with
          | nil => exact absurd hc hne
          | cons y l => exact ⟨y, l, rfl⟩
        simp only [List.tail_cons] at hx
        rw [hl] at hx hall'
        rcases List.mem_cons.1 hx with rfl | hx
        · have hs' := hall s' (by simp)
          have : ∃ z l', putSegs s' rest (bs.drop s.room) = (s'.fill (bs.drop s.room) :: z, l') := putSegs_head _ _ _
          obtain ⟨z, l', hz⟩ := this
          rw [hz] at hl
          simp only [List.cons.injEq] at hl
          rw [← hl.1]
          simp [Seg.fill, hs']
        · exact hall' x hx

theorem putBytes_good {c : Cur} (h : Good c) (bs : List Byte) :
    Good (putBytes c bs) ∧ payload (putBytes c bs) = payload c ++ bs := by
  obtain ⟨i1, i2, i3, i4, i5⟩ := putSegs_spec c.after c.cur bs h.packed
  unfold putBytes
  dsimp only
  cases hd : (putSegs c.cur c.after bs).1.drop (putSegs c.cur c.after bs).2 with
  | nil =>
    have := congrArg List.length hd
    simp at this; omega
  | cons s rest =>
    have hsplit : (putSegs c.cur c.after bs).1 = (putSegs c.cur c.after bs).1.take (putSegs c.cur c.after bs).2 ++ s :: rest := by
      rw [← hd, List.take_append_drop]
    have hch : (⟨c.before ++ (putSegs c.cur c.after bs).1.take (putSegs c.cur c.after bs).2, s, rest⟩ : Cur).chain =
        c.before ++ (putSegs c.cur c.after bs).1 := by
      unfold Cur.chain
      conv => rhs; rw [hsplit]
      simp
    refine ⟨⟨?_, ?_, ?_⟩, ?_⟩
    · intro x hx
      rcases List.mem_append.1 hx with hx | hx
      · exact h.left x hx
      · exact i3 x hx
    · rw [← hd]
      exact i4.sublist (List.drop_sublist _ _)
    · rw [hch]
      intro x hx
      have hu := h.used
      unfold Cur.chain at hu
      cases hb : c.before with
      | nil =>
        rw [hb] at hx hu
        exact i5 (fun y hy => hu y (by simpa using hy)) x hx
      | cons b l =>
        rw [hb] at hx hu
        simp only [List.cons_append, List.tail_cons, List.mem_append] at hx
        rcases hx with hx | hx
        · exact hu x (by simp [hx])
        · have hall : ∀ y ∈ c.cur :: c.after, y.data ≠ [] := fun y hy => hu y (by simp only [List.cons_append, List.tail_cons, List.mem_append]; exact .inr hy)
          have ht := i5 fun y hy => hall y (List.mem_cons_of_mem _ hy)
          have : ∃ z l', putSegs c.cur c.after bs = (c.cur.fill bs :: z, l') := putSegs_head _ _ _
          obtain ⟨z, l', hz⟩ := this
          rw [hz] at hx ht
          rcases List.mem_cons.1 hx with rfl | hx
          · have := hall c.cur (by simp)
            simp [Seg.fill, this]
          · exact ht x hx
    · unfold payload
      rw [hch]
      show dataOf _ = dataOf _ ++ bs
      unfold Cur.chain
      rw [dataOf_append, dataOf_append, i1]
      simp

/-! ## Marshalling produces the wire format -/

theorem have_iff (fd : Field) (prev : List Val) :
    fd.has prev = true ↔ present fd prev := by
  unfold present Field.has
  cases fd.isHave <;> simp

/-- what a successful marshalling does to the chain -/
def Appends (c : Cur) (bs : List Byte) (r : Marsh) : Prop :=
  ∃ c', r = .ok (c', bs.length) ∧ Good c' ∧ payload c' = payload c ++ bs

theorem put_appends {c : Cur} (h : Good c) (bs : List Byte) : Appends c bs (put c bs) := by
  obtain ⟨h1, h2⟩ := putBytes_good h bs
  exact ⟨_, rfl, h1, h2⟩

theorem Appends.bind {c : Cur} {b1 b2 : List Byte} {r : Marsh} {f : Cur × Nat → Marsh} (h1 : Appends c b1 r)
    (h2 : ∀ c', Good c' → Appends c' b2 (f (c', b1.length) |>.bind fun (c'', m) => .ok (c'', m - b1.length)) ∧
      ∀ x m, f (c', b1.length) = .ok (x, m) → b1.length ≤ m) : Appends c (b1 ++ b2) (r.bind f) := by
  obtain ⟨c', rfl, hg, hp⟩ := h1
  obtain ⟨⟨c'', h3, hg', hp'⟩, h4⟩ := h2 c' hg
  refine ⟨c'', ?_, hg', by rw [hp', hp]; simp⟩
  simp only [Out.bind]
  cases hx : f (c', b1.length) with
  | ok x =>
    obtain ⟨y, m⟩ := x
    rw [hx] at h3
    simp only [Out.bind, Out.ok.injEq, Prod.mk.injEq] at h3
    have := h4 y m hx
    simp only [Out.ok.injEq, Prod.mk.injEq, List.length_append]
    exact ⟨h3.1, by omega⟩
  | err e => rw [hx] at h3; simp [Out.bind] at h3
  | ub => rw [hx] at h3; simp [Out.bind] at h3
  | bogus => rw [hx] at h3; simp [Out.bind] at h3
  | more => rw [hx] at h3; simp [Out.bind] at h3

/-- sequencing of two parts, the usual case -/
theorem appends_seq {c : Cur} {b1 b2 : List Byte} {r : Marsh} {g : Cur → Marsh} (h1 : Appends c b1 r)
    (h2 : ∀ c', Good c' → Appends c' b2 (g c')) :
    Appends c (b1 ++ b2) (r.bind fun (c', n) => (g c').bind fun (c'', m) => .ok (c'', n + m)) := by
  obtain ⟨c', rfl, hg, hp⟩ := h1
  obtain ⟨c'', h3, hg', hp'⟩ := h2 c' hg
  exact ⟨c'', by simp [Out.bind, h3], hg', by rw [hp', hp]; simp⟩

def marshItem (be : Bool) (env : Env) (f : Nat) : Item → Cur → Marsh
  | .obj t v, c => marshal be true env f t v c
  | .fields fs prev vs, c => mFields (marshal be true env f) fs prev vs c
  | .elems t vs, c => mElems (marshal be true env f t) vs c

theorem marsh_wire {be : Bool} {env : Env} {it : Item} {bs : List Byte} (h : Wire be env it bs) :
    ∃ f0, ∀ f, f0 ≤ f → ∀ c, Good c → Appends c bs (marshItem be env f it c) := by
  induction h with
  | @void t h =>
    refine ⟨1, fun f hf c hc => ?_⟩
    obtain ⟨f, rfl⟩ : ∃ g, f = g + 1 := ⟨f - 1, by omega⟩
    simp only [marshItem, marshal, h]
    exact ⟨c, rfl, hc, by simp⟩
  | @int t k n h hn =>
    refine ⟨1, fun f hf c hc => ?_⟩
    obtain ⟨f, rfl⟩ : ∃ g, f = g + 1 := ⟨f - 1, by omega⟩
    simp only [marshItem, marshal, h]
    exact put_appends hc _
  | @raw t k bs h hl =>
    refine ⟨1, fun f hf c hc => ?_⟩
    obtain ⟨f, rfl⟩ : ∃ g, f = g + 1 := ⟨f - 1, by omega⟩
    simp only [marshItem, marshal, h]
    exact put_appends hc _
  | @null t ch h =>
    refine ⟨1, fun f hf c hc => ?_⟩
    obtain ⟨f, rfl⟩ : ∃ g, f = g + 1 := ⟨f - 1, by omega⟩
    simp only [marshItem, marshal, h]
    exact put_appends hc _
  | @ptr t ch v bs h hk _ ih =>
    obtain ⟨f0, ih⟩ := ih
    refine ⟨f0 + 1, fun f hf c hc => ?_⟩
    obtain ⟨f, rfl⟩ : ∃ g, f = g + 1 := ⟨f - 1, by omega⟩
    simp only [marshItem, marshal, h]
    exact appends_seq (b1 := [1]) (put_appends hc _) fun c' hc' => ih f (by omega) c' hc'
  | @ref t ch v bs h _ ih =>
    obtain ⟨f0, ih⟩ := ih
    refine ⟨f0 + 1, fun f hf c hc => ?_⟩
    obtain ⟨f, rfl⟩ : ∃ g, f = g + 1 := ⟨f - 1, by omega⟩
    have := ih f (by omega) c hc
    simp only [marshItem] at this ⊢
    have he : marshal be true env (f + 1) t v c = marshal be true env f ch v c := by
      rw [marshal]; simp only [h]
    rw [he]; exact this
  | @nullStr t h =>
    refine ⟨1, fun f hf c hc => ?_⟩
    obtain ⟨f, rfl⟩ : ∃ g, f = g + 1 := ⟨f - 1, by omega⟩
    simp only [marshItem, marshal, h]
    exact put_appends hc _
  | @str t s h hs h0 =>
    refine ⟨1, fun f hf c hc => ?_⟩
    obtain ⟨f, rfl⟩ : ∃ g, f = g + 1 := ⟨f - 1, by omega⟩
    simp only [marshItem, marshal, h]
    rw [Nat.mod_eq_of_lt hs, List.take_of_length_le (by simp)]
    exact appends_seq (b1 := [1]) (put_appends hc _) fun c' hc' => put_appends hc' _
  | @struct t fs vs bs h _ ih =>
    obtain ⟨f0, ih⟩ := ih
    refine ⟨f0 + 1, fun f hf c hc => ?_⟩
    obtain ⟨f, rfl⟩ : ∃ g, f = g + 1 := ⟨f - 1, by omega⟩
    simp only [marshItem, marshal, h]
    exact ih f (by omega) c hc
  | @fixedBytes t n bs h hl =>
    refine ⟨1, fun f hf c hc => ?_⟩
    obtain ⟨f, rfl⟩ : ∃ g, f = g + 1 := ⟨f - 1, by omega⟩
    simp only [marshItem, marshal, h]
    rw [if_pos hl]
    exact put_appends hc _
  | @varBytes t cap bs h h1 h2 =>
    refine ⟨1, fun f hf c hc => ?_⟩
    obtain ⟨f, rfl⟩ : ∃ g, f = g + 1 := ⟨f - 1, by omega⟩
    simp only [marshItem, marshal, h]
    rw [if_pos ⟨h1, h2⟩]
    exact appends_seq (put_appends hc _) fun c' hc' => put_appends hc' _
  | @bytesNil t cap s h h1 h2 h3 =>
    refine ⟨1, fun f hf c hc => ?_⟩
    obtain ⟨f, rfl⟩ : ∃ g, f = g + 1 := ⟨f - 1, by omega⟩
    simp only [marshItem, marshal, h]
    rw [Nat.mod_eq_of_lt h2, if_neg (by omega), List.take_of_length_le (by simp)]
    exact put_appends hc _
  | @dynBytes t bs h h1 =>
    refine ⟨1, fun f hf c hc => ?_⟩
    obtain ⟨f, rfl⟩ : ∃ g, f = g + 1 := ⟨f - 1, by omega⟩
    simp only [marshItem, marshal, h]
    exact appends_seq (put_appends hc _) fun c' hc' => put_appends hc' _
  | @fixedArray t n ch vs bs h h1 hk h2 _ ih =>
    obtain ⟨f0, ih⟩ := ih
    obtain ⟨f1, hs⟩ := known_sizeOk hk
    refine ⟨f0 + f1 + 1, fun f hf c hc => ?_⟩
    obtain ⟨f, rfl⟩ : ∃ g, f = g + 1 := ⟨f - 1, by omega⟩
    simp only [marshItem, marshal, h, hs f (by omega)]
    rw [if_pos ⟨h2, h1⟩]
    exact ih f (by omega) c hc
  | @varArray t cap ch vs bs h hk h1 h2 _ ih =>
    obtain ⟨f0, ih⟩ := ih
    obtain ⟨f1, hs⟩ := known_sizeOk hk
    refine ⟨f0 + f1 + 1, fun f hf c hc => ?_⟩
    obtain ⟨f, rfl⟩ : ∃ g, f = g + 1 := ⟨f - 1, by omega⟩
    simp only [marshItem, marshal, h, hs f (by omega)]
    rw [if_pos ⟨h1, h2⟩]
    exact appends_seq (put_appends hc _) fun c' hc' => ih f (by omega) c' hc'
  | @dynArray t ch vs bs h hk h1 hw ih =>
    obtain ⟨f0, ih⟩ := ih
    obtain ⟨f1, hs⟩ := known_sizeOk hk
    refine ⟨f0 + f1 + 1, fun f hf c hc => ?_⟩
    obtain ⟨f, rfl⟩ : ∃ g, f = g + 1 := ⟨f - 1, by omega⟩
    simp only [marshItem, marshal, h, hs f (by omega)]
    by_cases hv : vs = []
    · subst hv
      cases hw
      simp only [if_true]
      have := put_appends hc (hostBytes be 2 0)
      obtain ⟨c', h3, h4, h5⟩ := this
      exact ⟨c', by simp [h3, Out.bind], h4, by simpa using h5⟩
    · simp only [hv, if_false]
      exact appends_seq (put_appends hc _) fun c' hc' => ih f (by omega) c' hc'
  | noFields => exact ⟨0, fun f _ c hc => ⟨c, rfl, hc, by simp⟩⟩
  | @field fd fs prev v vs b bs hp _ _ ih1 ih2 =>
    obtain ⟨f1, ih1⟩ := ih1
    obtain ⟨f2, ih2⟩ := ih2
    refine ⟨f1 + f2, fun f hf c hc => ?_⟩
    simp only [marshItem, mFields]
    rw [if_pos ((have_iff fd prev).2 hp)]
    exact appends_seq (ih1 f (by omega) c hc) fun c' hc' => ih2 f (by omega) c' hc'
  | @absentField fd fs prev vs bs hp _ ih =>
    obtain ⟨f0, ih⟩ := ih
    refine ⟨f0, fun f hf c hc => ?_⟩
    simp only [marshItem, mFields]
    rw [if_neg (fun h => hp ((have_iff fd prev).1 h))]
    exact ih f hf c hc
  | noElems => exact ⟨0, fun f _ c hc => ⟨c, rfl, hc, by simp⟩⟩
  | @elem t v vs b bs _ _ ih1 ih2 =>
    obtain ⟨f1, ih1⟩ := ih1
    obtain ⟨f2, ih2⟩ := ih2
    refine ⟨f1 + f2, fun f hf c hc => ?_⟩
    simp only [marshItem, mElems]
    exact appends_seq (ih1 f (by omega) c hc) fun c' hc' => ih2 f (by omega) c' hc'

/-! ## Segmentation: a chain behaves like a single segment -/

/-- the results on a chain and on the single segment with the same bytes correspond -/
def Same {α : Type} : Unm α → Unm α → Prop
  | .ok (v, c, n), .ok (v', c', n') => v = v' ∧ n = n' ∧ NoEmpty c ∧ c' = [c.flatten]
  | .err e, .err e' => e = e'
  | .ub, .ub => True
  | .bogus, .bogus => True
  | .more, .more => True
  | _, _ => False

theorem Same.bind {α β : Type} {r1 r2 : Unm α} {k : α × Chain × Nat → Unm β} (h : Same r1 r2)
    (hk : ∀ v c n, NoEmpty c → Same (k (v, c, n)) (k (v, [c.flatten], n))) : Same (r1.bind k) (r2.bind k) := by
  cases r1 <;> cases r2 <;> simp only [Same, Out.bind] at h ⊢
  · rename_i a b
    obtain ⟨v, c, n⟩ := a
    obtain ⟨v', c', n'⟩ := b
    obtain ⟨rfl, rfl, hc, rfl⟩ := h
    exact hk v c n hc
  · exact h

theorem Same.ok {α : Type} {v : α} {c : Chain} {n : Nat} (h : NoEmpty c) : Same (.ok (v, c, n)) (.ok (v, [c.flatten], n)) :=
  ⟨rfl, rfl, h, rfl⟩

theorem noEmpty_tail {s s' : List Byte} {rest : Chain} (h : NoEmpty (s :: s' :: rest)) : NoEmpty (s' :: rest) ∧ s' ≠ [] :=
  ⟨⟨by simp, fun x hx => h.2 x (by simp only [List.tail_cons] at hx ⊢; exact List.mem_cons_of_mem _ hx)⟩, h.2 s' (by simp)⟩

theorem getBytes_le {s : List Byte} {rest : Chain} {n : Nat} (h : n ≤ s.length) :
    getBytes (s :: rest) n = .ok (s.take n, s.drop n :: rest) := by
  rw [getBytes.eq_def]; simp [h]

theorem getBytes_one (s : List Byte) (n : Nat) :
    getBytes [s] n = if n ≤ s.length then .ok (s.take n, [s.drop n]) else .err .emsgsize := by
  rw [getBytes.eq_def]

theorem getBytes_more {s s' : List Byte} {rest : Chain} {n : Nat} (h : ¬ n ≤ s.length) :
    getBytes (s :: s' :: rest) n = (getBytes (s' :: rest) (n - s.length)).bind fun (bs, c) => .ok (s ++ bs, c) := by
  rw [getBytes.eq_def]; simp [h]

theorem get_same {c : Chain} (h : NoEmpty c) (n : Nat) : Same (get c n) (get [c.flatten] n) := by
  unfold get
  have key : ∀ (c : Chain) (n : Nat), NoEmpty c →
      Same ((getBytes c n).bind fun (bs, c') => .ok (bs, c', n)) ((getBytes [c.flatten] n).bind fun (bs, c') => .ok (bs, c', n)) := by
    intro c
    induction c with
    | nil => intro n h; exact absurd rfl h.1
    | cons s rest ih =>
      intro n h
      by_cases hn : n ≤ s.length
      · have h1 : n ≤ (s :: rest).flatten.length := by simp; omega
        have h2 : NoEmpty (s.drop n :: rest) := ⟨by simp, h.2⟩
        rw [getBytes_le hn, getBytes_one, if_pos h1]
        simp only [Out.bind, Same, List.flatten_cons, true_and]
        refine ⟨?_, h2, ?_⟩
        · rw [List.take_append_of_le_length hn]
        · rw [List.drop_append_of_le_length hn]
      · cases rest with
        | nil =>
          rw [getBytes_one, getBytes_one, if_neg hn, if_neg (by simpa using hn)]
          simp only [Out.bind, Same]
        | cons s' rest =>
          have hi := ih (n - s.length) (noEmpty_tail h).1
          rw [getBytes_more hn]
          cases hg : getBytes (s' :: rest) (n - s.length) with
          | ok a =>
            obtain ⟨bs, c'⟩ := a
            rw [hg, getBytes_one] at hi
            by_cases hl : n - s.length ≤ (s' :: rest).flatten.length
            · rw [if_pos hl] at hi
              simp only [Out.bind, Same] at hi
              rw [getBytes_one, if_pos (by rw [List.flatten_cons, List.length_append]; omega)]
              simp only [Out.bind, Same, true_and]
              refine ⟨?_, hi.2.2.1, ?_⟩
              · rw [hi.1, List.flatten_cons (l := s), List.take_append, List.take_of_length_le (l := s) (by omega)]
              · have := hi.2.2.2
                rw [List.flatten_cons, List.drop_append, List.drop_of_length_le (by omega), List.nil_append]
                exact this
            · rw [if_neg hl] at hi
              simp [Out.bind, Same] at hi
          | err e =>
            rw [hg, getBytes_one] at hi
            by_cases hl : n - s.length ≤ (s' :: rest).flatten.length
            · rw [if_pos hl] at hi
              simp [Out.bind, Same] at hi
            · rw [if_neg hl] at hi
              rw [getBytes_one, if_neg (by rw [List.flatten_cons, List.length_append]; omega)]
              simpa [Out.bind, Same] using hi
          | ub =>
            rw [hg, getBytes_one] at hi
            split at hi <;> simp [Out.bind, Same] at hi
          | bogus =>
            rw [hg, getBytes_one] at hi
            split at hi <;> simp [Out.bind, Same] at hi
          | more =>
            rw [hg, getBytes_one] at hi
            split at hi <;> simp [Out.bind, Same] at hi
  exact key c n h

theorem strSize_single (s : List Byte) : strSize [s] = match s.findIdx? (· == 0) with | some i => .ok (i + 1) | none => .err .emsgsize := by
  rw [strSize]; rfl

theorem strSize_same {c : Chain} (h : NoEmpty c) : strSize c = strSize [c.flatten] := by
  induction c with
  | nil => exact absurd rfl h.1
  | cons s rest ih =>
    rw [strSize_single, List.flatten_cons, List.findIdx?_append]
    cases rest with
    | nil =>
      rw [strSize_single]
      simp
    | cons s' rest =>
      rw [strSize]
      cases hf : s.findIdx? (· == 0) with
      | some i => simp
      | none =>
        have hi := ih (noEmpty_tail h).1
        rw [strSize_single] at hi
        rw [if_neg (noEmpty_tail h).2, hi]
        cases hg : List.findIdx? (· == 0) (s' :: rest).flatten with
        | none => simp [Out.bind]
        | some j => simp [Out.bind]; omega

/-- T4: for every recursion depth -/
theorem unmarshal_same {be junk : Bool} {env : Env} (f : Nat) : ∀ (t : Nat) (c : Chain), NoEmpty c →
    Same (unmarshal be junk env f t c) (unmarshal be junk env f t [c.flatten]) := by
  induction f with
  | zero => intro t c _; simp [unmarshal, Same]
  | succ f ih =>
    have hel : ∀ (t k : Nat) (c : Chain), NoEmpty c →
        Same (uElems (unmarshal be junk env f t) k c) (uElems (unmarshal be junk env f t) k [c.flatten]) := by
      intro t k
      induction k with
      | zero => intro c h; exact Same.ok h
      | succ k ihk =>
        intro c h
        rw [uElems, uElems]
        refine (ih t c h).bind fun v c' n hc' => ?_
        exact (ihk c' hc').bind fun vs c'' m hc'' => Same.ok hc''
    have hfl : ∀ (fs : List Field) (prev : List Val) (c : Chain), NoEmpty c →
        Same (uFields (unmarshal be junk env f) fs prev c) (uFields (unmarshal be junk env f) fs prev [c.flatten]) := by
      intro fs
      induction fs with
      | nil => intro prev c h; exact Same.ok h
      | cons fd fs ihf =>
        intro prev c h
        rw [uFields, uFields]
        split
        · refine (ih fd.node c h).bind fun v c' n hc' => ?_
          exact (ihf _ c' hc').bind fun vs c'' m hc'' => Same.ok hc''
        · exact (ihf _ c h).bind fun vs c'' m hc'' => Same.ok hc''
    intro t c h
    rw [unmarshal, unmarshal]
    cases env t with
    | void => exact Same.ok h
    | int k => exact (get_same h k).bind fun v c' n hc' => Same.ok hc'
    | raw k => exact (get_same h k).bind fun v c' n hc' => Same.ok hc'
    | pointer ch =>
      dsimp only
      split
      · trivial
      · refine (get_same h 1).bind fun v c' n hc' => ?_
        dsimp only
        split
        · exact Same.ok hc'
        · split
          · trivial
          · trivial
          · exact (ih ch c' hc').bind fun v c'' n hc'' => Same.ok hc''
    | reference ch => exact ih ch c h
    | string =>
      dsimp only
      split
      · trivial
      · refine (get_same h 1).bind fun v c' n hc' => ?_
        dsimp only
        split
        · exact Same.ok hc'
        · rw [strSize_same hc']
          cases strSize [c'.flatten] with
          | ok sz => exact (get_same hc' _).bind fun v c'' n hc'' => Same.ok hc''
          | err e => rfl
          | _ => trivial
    | struct fs => exact (hfl fs [] c h).bind fun v c' n hc' => Same.ok hc'
    | fixedBytes k => exact (get_same h k).bind fun v c' n hc' => Same.ok hc'
    | varBytes cap =>
      refine (get_same h 2).bind fun v c' n hc' => ?_
      dsimp only
      split
      · rfl
      · exact (get_same hc' _).bind fun v c'' n hc'' => Same.ok hc''
    | bytesNil cap =>
      dsimp only
      rw [strSize_same h]
      cases strSize [c.flatten] with
      | ok sz =>
        simp only [Out.bind]
        split
        · rfl
        · exact (get_same h _).bind fun v c'' n hc'' => Same.ok hc''
      | err e => rfl
      | _ => trivial
    | dynBytes =>
      refine (get_same h 2).bind fun v c' n hc' => ?_
      exact (get_same hc' _).bind fun v c'' n hc'' => Same.ok hc''
    | fixedArray k ch =>
      dsimp only
      split
      · trivial
      · trivial
      · split
        · exact (hel ch k c h).bind fun v c' n hc' => Same.ok hc'
        · trivial
    | varArray cap ch =>
      dsimp only
      split
      · trivial
      · trivial
      · refine (get_same h 2).bind fun v c' n hc' => ?_
        dsimp only
        split
        · rfl
        · exact (hel ch _ c' hc').bind fun v c' n hc' => Same.ok hc'
    | dynArray ch =>
      refine (get_same h 2).bind fun v c' n hc' => ?_
      dsimp only
      split
      · exact Same.ok hc'
      · split
        · trivial
        · rfl
        · exact (hel ch _ c' hc').bind fun v c' n hc' => Same.ok hc'
    | unknown => rfl

/-! ## Unmarshalling the wire format, and its strict prefixes, from a single segment -/

/-- a strict prefix -/
def Cut (p bs : List Byte) : Prop := ∃ q, q ≠ [] ∧ bs = p ++ q

theorem cut_append {p b1 b2 : List Byte} (h : Cut p (b1 ++ b2)) : Cut p b1 ∨ ∃ p', p = b1 ++ p' ∧ Cut p' b2 := by
  obtain ⟨q, hq, he⟩ := h
  rcases List.append_eq_append_iff.1 he with ⟨a, h1, h2⟩ | ⟨a, h1, h2⟩
  · exact .inr ⟨a, h1, q, hq, h2⟩
  · by_cases ha : a = []
    · subst ha
      exact .inr ⟨[], by simpa using h1.symm, q, hq, by simpa using h2.symm⟩
    · exact .inl ⟨a, ha, h1⟩

theorem cut_length {p bs : List Byte} (h : Cut p bs) : p.length < bs.length := by
  obtain ⟨q, hq, rfl⟩ := h
  have := List.length_pos_iff.2 hq
  simp; omega

/-- reads `bs` as `v`; a strict prefix of `bs` is refused -/
def Reads {α : Type} (g : Chain → Unm α) (bs : List Byte) (v : α) : Prop :=
  (∀ rest, g [bs ++ rest] = .ok (v, [rest], bs.length)) ∧ ∀ p, Cut p bs → g [p] = .err .emsgsize

theorem reads_get (bs : List Byte) (n : Nat) (h : bs.length = n) : Reads (fun c => get c n) bs bs := by
  subst h
  constructor
  · intro rest
    simp [get, getBytes_one, Out.bind]
  · intro p hp
    have := cut_length hp
    simp only [get]
    rw [getBytes_one, if_neg (by omega)]
    rfl

theorem reads_nil {α : Type} (v : α) : Reads (fun c => .ok (v, c, 0)) [] v :=
  ⟨fun rest => by simp, fun p ⟨q, hq, he⟩ => absurd (List.append_eq_nil_iff.1 he.symm).2 hq⟩

/-- sequencing: `g`, then `k` -/
theorem reads_seq {α β γ : Type} {g : Chain → Unm α} {b1 b2 : List Byte} {a : α} {k : α → Chain → Unm β} {b : β} {w : α → β → γ}
    (h1 : Reads g b1 a) (h2 : Reads (k a) b2 b) :
    Reads (fun c => (g c).bind fun (a, c', n) => (k a c').bind fun (b, c'', m) => .ok (w a b, c'', n + m)) (b1 ++ b2) (w a b) := by
  constructor
  · intro rest
    simp only [List.append_assoc, h1.1, Out.bind, h2.1, List.length_append]
  · intro p hp
    rcases cut_append hp with hp | ⟨p', rfl, hq⟩
    · simp only [h1.2 p hp, Out.bind]
    · simp only [h1.1, h2.2 p' hq, Out.bind]

theorem reads_map {α β : Type} {g : Chain → Unm α} {bs : List Byte} {a : α} {w : α → β} (h : Reads g bs a) :
    Reads (fun c => (g c).bind fun (a, c', n) => .ok (w a, c', n)) bs (w a) :=
  ⟨fun rest => by simp only [h.1, Out.bind], fun p hp => by simp only [h.2 p hp, Out.bind]⟩

/-- a choice made on the data read -/
theorem reads_bind {α β : Type} {g : Chain → Unm α} {b1 b2 : List Byte} {a : α} {k : α × Chain × Nat → Unm β} {b : β}
    (h1 : Reads g b1 a) (h2 : Reads (fun c => (k (a, c, b1.length)).bind fun (b, c', m) => .ok (b, c', m - b1.length)) b2 b)
    (h3 : ∀ c x c' m, k (a, c, b1.length) = .ok (x, c', m) → b1.length ≤ m) :
    Reads (fun c => (g c).bind k) (b1 ++ b2) b := by
  constructor
  · intro rest
    have h := h2.1 rest
    simp only [List.append_assoc, h1.1, Out.bind, List.length_append] at h ⊢
    cases hk : k (a, [b2 ++ rest], b1.length) with
    | ok x =>
      obtain ⟨x, c', m⟩ := x
      have := h3 _ _ _ _ hk
      rw [hk] at h
      simp only [Out.ok.injEq, Prod.mk.injEq] at h ⊢
      exact ⟨h.1, h.2.1, by omega⟩
    | _ => rw [hk] at h; simp at h
  · intro p hp
    rcases cut_append hp with hp | ⟨p', rfl, hq⟩
    · simp only [h1.2 p hp, Out.bind]
    · have h := h2.2 p' hq
      simp only [h1.1, Out.bind] at h ⊢
      cases hk : k (a, [p'], b1.length) with
      | err e => rw [hk] at h; simpa using h
      | _ => rw [hk] at h; simp at h

theorem findIdx_none {s : List Byte} (h : 0 ∉ s) : s.findIdx? (· == 0) = none := by
  rw [List.findIdx?_eq_none_iff]
  intro x hx
  simp only [beq_eq_false_iff_ne]
  rintro rfl
  exact h hx

theorem strSize_str {s rest : List Byte} (h : 0 ∉ s) : strSize [s ++ [0] ++ rest] = .ok (s.length + 1) := by
  rw [strSize_single, List.append_assoc, List.findIdx?_append, findIdx_none h]
  simp [List.findIdx?_cons]

theorem strSize_cut {p s : List Byte} (h : 0 ∉ s) (hp : Cut p (s ++ [0])) : strSize [p] = .err .emsgsize := by
  have : 0 ∉ p := by
    obtain ⟨q, hq, he⟩ := hp
    intro hm
    rcases List.append_eq_append_iff.1 he with ⟨a, h1, h2⟩ | ⟨a, h1, h2⟩
    · have hl := congrArg List.length h2
      have := List.length_pos_iff.2 hq
      simp only [List.length_append, List.length_cons, List.length_nil] at hl
      have ha : a = [] := List.length_eq_zero_iff.1 (by omega)
      subst ha
      simp only [List.append_nil] at h1
      subst h1; exact h hm
    · exact h (h1 ▸ List.mem_append_left _ hm)
  rw [strSize_single, findIdx_none this]

theorem cstr_str {s : List Byte} (h : 0 ∉ s) : cstr (s ++ [0]) = .str (some s) := by
  unfold cstr
  rw [if_pos (by simp)]
  rw [List.takeWhile_append_of_pos]
  · simp
  · intro x hx
    simp only [bne_iff_ne, ne_eq]
    rintro rfl; exact h hx

theorem reads_str {s : List Byte} (h : 0 ∉ s) (h2 : s.length + 1 < 65536) :
    Reads (fun c => (strSize c).bind fun sz => (get c (sz % 65536)).bind fun (bs, c', m) => .ok (cstr bs, c', m)) (s ++ [0]) (.str (some s)) := by
  have hg := reads_get (s ++ [0]) (s.length + 1) (by simp)
  constructor
  · intro rest
    simp only [strSize_str h, Out.bind, Nat.mod_eq_of_lt h2, hg.1 rest, cstr_str h]
  · intro p hp
    simp only [strSize_cut h hp, Out.bind]

def unmItem (be : Bool) (env : Env) (f : Nat) : Item → Chain → Unm (List Val)
  | .obj t _, c => (unmarshal be true env f t c).bind fun (v, c', n) => .ok ([v], c', n)
  | .fields fs prev _, c => uFields (unmarshal be true env f) fs prev c
  | .elems t vs, c => uElems (unmarshal be true env f t) vs.length c

def itemVals : Item → List Val
  | .obj _ v => [v]
  | .fields _ _ vs => vs
  | .elems _ vs => vs

theorem reads_obj {be : Bool} {env : Env} {f t : Nat} {v : Val} {bs : List Byte} (h : Reads (unmItem be env f (.obj t v)) bs [v]) :
    Reads (unmarshal be true env f t) bs v := by
  constructor
  · intro rest
    have := h.1 rest
    simp only [unmItem] at this
    cases hu : unmarshal be true env f t [bs ++ rest] with
    | ok x => rw [hu] at this; obtain ⟨x, c', m⟩ := x; simpa [Out.bind] using this
    | _ => rw [hu] at this; simp [Out.bind] at this
  · intro p hp
    have := h.2 p hp
    simp only [unmItem] at this
    cases hu : unmarshal be true env f t [p] with
    | err e => rw [hu] at this; simpa [Out.bind] using this
    | _ => rw [hu] at this; simp [Out.bind] at this

theorem obj_reads {be : Bool} {env : Env} {f t : Nat} {v : Val} {bs : List Byte} (h : Reads (unmarshal be true env f t) bs v) :
    Reads (unmItem be env f (.obj t v)) bs [v] := reads_map (w := fun v => [v]) h

/-- changing the function to an equal one -/
theorem Reads.congr {α : Type} {g g' : Chain → Unm α} {bs : List Byte} {v : α} (h : Reads g bs v) (he : ∀ c, g' c = g c) :
    Reads g' bs v := ⟨fun r => by rw [he, h.1], fun p hp => by rw [he, h.2 p hp]⟩

theorem unm_wire {be : Bool} {env : Env} {it : Item} {bs : List Byte} (h : Wire be env it bs) :
    ∃ f0, ∀ f, f0 ≤ f → Reads (unmItem be env f it) bs (itemVals it) := by
  have h216 : (256 : Nat) ^ 2 = 65536 := rfl
  induction h with
  | @void t h =>
    refine ⟨1, fun f hf => obj_reads ?_⟩
    obtain ⟨f, rfl⟩ : ∃ g, f = g + 1 := ⟨f - 1, by omega⟩
    exact (reads_nil Val.unit).congr fun c => by simp only [unmarshal, h]
  | @int t k n h hn =>
    refine ⟨1, fun f hf => obj_reads ?_⟩
    obtain ⟨f, rfl⟩ : ∃ g, f = g + 1 := ⟨f - 1, by omega⟩
    have := reads_map (w := fun b => Val.num (ofHost be b)) (reads_get _ _ (hostBytes_length be k n))
    dsimp only at this
    rw [ofHost_hostBytes be k n hn] at this
    exact this.congr fun c => by simp only [unmarshal, h]
  | @raw t k bs h hl =>
    refine ⟨1, fun f hf => obj_reads ?_⟩
    obtain ⟨f, rfl⟩ : ∃ g, f = g + 1 := ⟨f - 1, by omega⟩
    exact (reads_map (w := Val.bytes) (reads_get _ _ hl)).congr fun c => by simp only [unmarshal, h]
  | @null t ch h =>
    refine ⟨1, fun f hf => obj_reads ?_⟩
    obtain ⟨f, rfl⟩ : ∃ g, f = g + 1 := ⟨f - 1, by omega⟩
    have := reads_get [0] 1 rfl
    refine ⟨fun rest => ?_, fun p hp => ?_⟩
    · simp only [unmarshal, h, this.1 rest, Out.bind]; simp
    · simp only [unmarshal, h, this.2 p hp, Out.bind]; simp
  | @ptr t ch v bs h hk _ ih =>
    obtain ⟨f0, ih⟩ := ih
    obtain ⟨f1, hs⟩ := known_sizeOk hk
    refine ⟨f0 + f1 + 1, fun f hf => obj_reads ?_⟩
    obtain ⟨f, rfl⟩ : ∃ g, f = g + 1 := ⟨f - 1, by omega⟩
    have h1 := reads_get [1] 1 rfl
    have h2 := reads_obj (ih f (by omega))
    have := reads_seq (k := fun _ => unmarshal be true env f ch) (w := fun _ v => Val.ptr (some v)) h1 h2
    refine ⟨fun rest => ?_, fun p hp => ?_⟩
    · have h3 := h1.1 (bs ++ rest)
      simp only [List.cons_append, List.nil_append] at h3
      simp only [unmarshal, h, List.cons_append, h3, Out.bind, hs f (by omega), h2.1 rest]
      simp; omega
    · have hp' : Cut p ([1] ++ bs) := hp
      rcases cut_append hp' with hp | ⟨p', rfl, hq⟩
      · simp only [unmarshal, h, h1.2 p hp, Out.bind]; simp
      · simp only [unmarshal, h, h1.1 p', Out.bind, hs f (by omega), h2.2 p' hq]; simp
  | @ref t ch v bs h _ ih =>
    obtain ⟨f0, ih⟩ := ih
    refine ⟨f0 + 1, fun f hf => obj_reads ?_⟩
    obtain ⟨f, rfl⟩ : ∃ g, f = g + 1 := ⟨f - 1, by omega⟩
    exact (reads_obj (ih f (by omega))).congr fun c => by simp only [unmarshal, h]
  | @nullStr t h =>
    refine ⟨1, fun f hf => obj_reads ?_⟩
    obtain ⟨f, rfl⟩ : ∃ g, f = g + 1 := ⟨f - 1, by omega⟩
    have := reads_get [0] 1 rfl
    refine ⟨fun rest => ?_, fun p hp => ?_⟩
    · simp only [unmarshal, h, this.1 rest, Out.bind]; simp
    · simp only [unmarshal, h, this.2 p hp, Out.bind]; simp
  | @str t s h hs h0 =>
    refine ⟨1, fun f hf => obj_reads ?_⟩
    obtain ⟨f, rfl⟩ : ∃ g, f = g + 1 := ⟨f - 1, by omega⟩
    have h1 := reads_get [1] 1 rfl
    have h2 := reads_get (s ++ [0]) (s.length + 1) (by simp)
    refine ⟨fun rest => ?_, fun p hp => ?_⟩
    · have h3 := h1.1 (s ++ [0] ++ rest)
      simp only [List.cons_append, List.nil_append] at h3
      simp only [unmarshal, h, List.cons_append, h3, Out.bind, strSize_str h0, Nat.mod_eq_of_lt hs, h2.1 rest, cstr_str h0]
      simp; omega
    · have hp' : Cut p ([1] ++ (s ++ [0])) := hp
      rcases cut_append hp' with hp | ⟨p', rfl, hq⟩
      · simp only [unmarshal, h, h1.2 p hp, Out.bind]; simp
      · simp only [unmarshal, h, h1.1 p', Out.bind, strSize_cut h0 hq]; simp
  | @struct t fs vs bs h _ ih =>
    obtain ⟨f0, ih⟩ := ih
    refine ⟨f0 + 1, fun f hf => obj_reads ?_⟩
    obtain ⟨f, rfl⟩ : ∃ g, f = g + 1 := ⟨f - 1, by omega⟩
    exact (reads_map (w := Val.struct) (ih f (by omega))).congr fun c => by simp only [unmarshal, h, unmItem]
  | @fixedBytes t n bs h hl =>
    refine ⟨1, fun f hf => obj_reads ?_⟩
    obtain ⟨f, rfl⟩ : ∃ g, f = g + 1 := ⟨f - 1, by omega⟩
    exact (reads_map (w := Val.bytes) (reads_get _ _ hl)).congr fun c => by simp only [unmarshal, h]
  | @varBytes t cap bs h h1 h2 =>
    refine ⟨1, fun f hf => obj_reads ?_⟩
    obtain ⟨f, rfl⟩ : ∃ g, f = g + 1 := ⟨f - 1, by omega⟩
    have hv := ofHost_hostBytes be 2 bs.length (by omega)
    have i1 := reads_get _ _ (hostBytes_length be 2 bs.length)
    have i2 := reads_get bs bs.length rfl
    refine ⟨fun rest => ?_, fun p hp => ?_⟩
    · simp only [unmarshal, h, List.append_assoc, i1.1 (bs ++ rest), Out.bind, hv, i2.1 rest]
      rw [if_neg (by omega)]; simp
    · rcases cut_append hp with hp | ⟨p', rfl, hq⟩
      · simp only [unmarshal, h, i1.2 p hp, Out.bind]
      · simp only [unmarshal, h, i1.1 p', Out.bind, hv, i2.2 p' hq]
        rw [if_neg (by omega)]
  | @bytesNil t cap s h h1 h2 h3 =>
    refine ⟨1, fun f hf => obj_reads ?_⟩
    obtain ⟨f, rfl⟩ : ∃ g, f = g + 1 := ⟨f - 1, by omega⟩
    have i2 := reads_get (s ++ [0]) (s.length + 1) (by simp)
    refine ⟨fun rest => ?_, fun p hp => ?_⟩
    · simp only [unmarshal, h, strSize_str h3, Out.bind, Nat.mod_eq_of_lt h2, i2.1 rest, cstr_str h3]
      rw [if_neg (by omega)]
    · simp only [unmarshal, h, strSize_cut h3 hp, Out.bind]
  | @dynBytes t bs h h1 =>
    refine ⟨1, fun f hf => obj_reads ?_⟩
    obtain ⟨f, rfl⟩ : ∃ g, f = g + 1 := ⟨f - 1, by omega⟩
    have hv := ofHost_hostBytes be 2 bs.length (by omega)
    have i1 := reads_get _ _ (hostBytes_length be 2 bs.length)
    have i2 := reads_get bs bs.length rfl
    refine ⟨fun rest => ?_, fun p hp => ?_⟩
    · simp only [unmarshal, h, List.append_assoc, i1.1 (bs ++ rest), Out.bind, hv, i2.1 rest]
      simp
    · rcases cut_append hp with hp | ⟨p', rfl, hq⟩
      · simp only [unmarshal, h, i1.2 p hp, Out.bind]
      · simp only [unmarshal, h, i1.1 p', Out.bind, hv, i2.2 p' hq]
  | @fixedArray t n ch vs bs h h1 hk h2 _ ih =>
    obtain ⟨f0, ih⟩ := ih
    obtain ⟨f1, hs⟩ := known_sizeOk hk
    refine ⟨f0 + f1 + 1, fun f hf => obj_reads ?_⟩
    obtain ⟨f, rfl⟩ : ∃ g, f = g + 1 := ⟨f - 1, by omega⟩
    subst h2
    exact (reads_map (w := Val.arr) (ih f (by omega))).congr fun c => by
      simp only [unmarshal, h, unmItem, hs f (by omega), h1, if_true]
  | @varArray t cap ch vs bs h hk h1 h2 _ ih =>
    obtain ⟨f0, ih⟩ := ih
    obtain ⟨f1, hs⟩ := known_sizeOk hk
    refine ⟨f0 + f1 + 1, fun f hf => obj_reads ?_⟩
    obtain ⟨f, rfl⟩ : ∃ g, f = g + 1 := ⟨f - 1, by omega⟩
    have hv := ofHost_hostBytes be 2 vs.length (by omega)
    have i1 := reads_get _ _ (hostBytes_length be 2 vs.length)
    have i2 : Reads (uElems (unmarshal be true env f ch) vs.length) bs vs := ih f (by omega)
    refine ⟨fun rest => ?_, fun p hp => ?_⟩
    · simp only [unmarshal, h, hs f (by omega), List.append_assoc, i1.1 (bs ++ rest), Out.bind, hv, i2.1 rest]
      rw [if_neg (by omega)]; simp
    · rcases cut_append hp with hp | ⟨p', rfl, hq⟩
      · simp only [unmarshal, h, hs f (by omega), i1.2 p hp, Out.bind]
      · simp only [unmarshal, h, hs f (by omega), i1.1 p', Out.bind, hv, i2.2 p' hq]
        rw [if_neg (by omega)]
  | @dynArray t ch vs bs h hk h1 hw ih =>
    obtain ⟨f0, ih⟩ := ih
    obtain ⟨f1, hs⟩ := known_sizeOk hk
    refine ⟨f0 + f1 + 1, fun f hf => obj_reads ?_⟩
    obtain ⟨f, rfl⟩ : ∃ g, f = g + 1 := ⟨f - 1, by omega⟩
    have hv := ofHost_hostBytes be 2 vs.length (by omega)
    have i1 := reads_get _ _ (hostBytes_length be 2 vs.length)
    have i2 : Reads (uElems (unmarshal be true env f ch) vs.length) bs vs := ih f (by omega)
    by_cases hz : vs = []
    · subst hz
      cases hw
      simp only [List.length_nil, List.append_nil] at hv i1 ⊢
      refine ⟨fun rest => ?_, fun p hp => ?_⟩
      · simp only [unmarshal, h, i1.1 rest, Out.bind, hv, if_true]
      · simp only [unmarshal, h, i1.2 p hp, Out.bind]
    · have hnz : ¬ vs.length = 0 := fun hc => hz (List.length_eq_zero_iff.1 hc)
      refine ⟨fun rest => ?_, fun p hp => ?_⟩
      · simp only [unmarshal, h, hs f (by omega), List.append_assoc, i1.1 (bs ++ rest), Out.bind, hv, i2.1 rest, hnz, if_false]
        simp
      · rcases cut_append hp with hp | ⟨p', rfl, hq⟩
        · simp only [unmarshal, h, i1.2 p hp, Out.bind]
        · simp only [unmarshal, h, hs f (by omega), i1.1 p', Out.bind, hv, i2.2 p' hq, hnz, if_false]
  | noFields => exact ⟨0, fun f _ => reads_nil []⟩
  | @field fd fs prev v vs b bs hp _ _ ih1 ih2 =>
    obtain ⟨f1, ih1⟩ := ih1
    obtain ⟨f2, ih2⟩ := ih2
    refine ⟨f1 + f2, fun f hf => ?_⟩
    have i1 := reads_obj (ih1 f (by omega))
    have i2 := ih2 f (by omega)
    have := reads_seq (k := fun v => uFields (unmarshal be true env f) fs (prev ++ [v])) (w := List.cons) i1 i2
    refine this.congr fun c => ?_
    simp only [unmItem, uFields, (have_iff fd prev).2 hp, if_true]
  | @absentField fd fs prev vs bs hp _ ih =>
    obtain ⟨f0, ih⟩ := ih
    refine ⟨f0, fun f hf => ?_⟩
    refine (reads_map (w := fun vs => Val.absent :: vs) (ih f hf)).congr fun c => ?_
    have : fd.has prev = false := by
      cases hx : fd.has prev with
      | false => rfl
      | true => exact absurd ((have_iff fd prev).1 hx) hp
    simp only [unmItem, uFields, this, Bool.false_eq_true, if_false]
  | noElems => exact ⟨0, fun f _ => reads_nil []⟩
  | @elem t v vs b bs _ _ ih1 ih2 =>
    obtain ⟨f1, ih1⟩ := ih1
    obtain ⟨f2, ih2⟩ := ih2
    refine ⟨f1 + f2, fun f hf => ?_⟩
    have i1 := reads_obj (ih1 f (by omega))
    have i2 := ih2 f (by omega)
    have := reads_seq (k := fun _ => uElems (unmarshal be true env f t) vs.length) (w := List.cons) i1 i2
    exact this.congr fun c => by simp only [unmItem, uElems, List.length_cons]

/-! ## More recursion depth does not change an outcome -/

def Le {α : Type} (x y : Out α) : Prop := x = .more ∨ x = y

theorem Le.refl {α : Type} (x : Out α) : Le x x := .inr rfl

theorem Le.bind {α β : Type} {x y : Out α} {k k' : α → Out β} (h : Le x y) (hk : ∀ a, Le (k a) (k' a)) :
    Le (x.bind k) (y.bind k') := by
  rcases h with rfl | rfl
  · exact .inl rfl
  · cases x with
    | ok a => exact hk a
    | _ => exact .inr rfl

theorem sizeOk_mono {env : Env} (f : Nat) : ∀ t, sizeOk env f t = none ∨ sizeOk env f t = sizeOk env (f + 1) t := by
  induction f with
  | zero => intro t; left; rfl
  | succ f ih =>
    intro t
    rw [sizeOk, sizeOk]
    cases env t with
    | reference c => exact ih c
    | fixedArray n c => exact ih c
    | varArray n c => exact ih c
    | _ => right; rfl

theorem sizeOk_le {α : Type} {env : Env} {f t : Nat} {b b' g g' : Out α} (h1 : Le b b') (h2 : Le g g') :
    Le (match sizeOk env f t with | none => .more | some false => b | some true => g)
      (match sizeOk env (f + 1) t with | none => .more | some false => b' | some true => g') := by
  rcases sizeOk_mono (env := env) f t with h | h
  · rw [h]; exact .inl rfl
  · rw [← h]
    split
    · exact .inl rfl
    · exact h1
    · exact h2

theorem mFields_le {g g' : Nat → Val → Cur → Marsh} (h : ∀ t v c, Le (g t v c) (g' t v c)) (fs : List Field) :
    ∀ prev vs c, Le (mFields g fs prev vs c) (mFields g' fs prev vs c) := by
  induction fs with
  | nil => intro prev vs c; cases vs <;> exact Le.refl _
  | cons fd fs ih =>
    intro prev vs c
    cases vs with
    | nil => exact Le.refl _
    | cons v vs =>
      rw [mFields, mFields]
      split
      · exact (h _ _ _).bind fun a => (ih _ _ _).bind fun a => Le.refl _
      · exact ih _ _ _

theorem mElems_le {g g' : Val → Cur → Marsh} (h : ∀ v c, Le (g v c) (g' v c)) (vs : List Val) :
    ∀ c, Le (mElems g vs c) (mElems g' vs c) := by
  induction vs with
  | nil => intro c; exact Le.refl _
  | cons v vs ih => intro c; exact (h _ _).bind fun a => (ih _).bind fun a => Le.refl _

theorem marshal_le {be junk : Bool} {env : Env} (f : Nat) : ∀ t v c,
    Le (marshal be junk env f t v c) (marshal be junk env (f + 1) t v c) := by
  induction f with
  | zero => intro t v c; left; rfl
  | succ f ih =>
    intro t v c
    rw [marshal.eq_def be junk env (f + 1), marshal.eq_def be junk env (f + 1 + 1)]
    dsimp only
    cases env t with
    | reference ch => exact ih ch v c
    | pointer ch =>
      cases v with
      | ptr o =>
        dsimp only
        split
        · exact Le.refl _
        · cases o with
          | none => exact Le.refl _
          | some v => exact (Le.refl _).bind fun a => (ih _ _ _).bind fun a => Le.refl _
      | _ => exact Le.refl _
    | struct fs =>
      cases v with
      | struct vs => exact mFields_le ih _ _ _ _
      | _ => exact Le.refl _
    | fixedArray n ch =>
      cases v with
      | arr vs =>
        refine sizeOk_le (Le.refl _) ?_
        split
        · exact mElems_le (ih ch) _ _
        · exact Le.refl _
      | _ => exact Le.refl _
    | varArray n ch =>
      cases v with
      | arr vs =>
        refine sizeOk_le (Le.refl _) ?_
        split
        · exact (Le.refl _).bind fun a => (mElems_le (ih ch) _ _).bind fun a => Le.refl _
        · exact Le.refl _
      | _ => exact Le.refl _
    | dynArray ch =>
      cases v with
      | arr vs =>
        refine (Le.refl _).bind fun a => ?_
        split
        · exact Le.refl _
        · exact sizeOk_le (Le.refl _) ((mElems_le (ih ch) _ _).bind fun a => Le.refl _)
      | _ => exact Le.refl _
    | bytesNil cap =>
      cases v with
      | str o => cases o <;> exact Le.refl _
      | _ => exact Le.refl _
    | _ => cases v <;> exact Le.refl _

theorem uFields_le {g g' : Nat → Chain → Unm Val} (h : ∀ t c, Le (g t c) (g' t c)) (fs : List Field) :
    ∀ prev c, Le (uFields g fs prev c) (uFields g' fs prev c) := by
  induction fs with
  | nil => intro prev c; exact Le.refl _
  | cons fd fs ih =>
    intro prev c
    rw [uFields, uFields]
    split
    · exact (h _ _).bind fun a => (ih _ _).bind fun a => Le.refl _
    · exact (ih _ _).bind fun a => Le.refl _

theorem uElems_le {g g' : Chain → Unm Val} (h : ∀ c, Le (g c) (g' c)) (k : Nat) :
    ∀ c, Le (uElems g k c) (uElems g' k c) := by
  induction k with
  | zero => intro c; exact Le.refl _
  | succ k ih => intro c; exact (h _).bind fun a => (ih _).bind fun a => Le.refl _

theorem unmarshal_le {be junk : Bool} {env : Env} (f : Nat) : ∀ t c,
    Le (unmarshal be junk env f t c) (unmarshal be junk env (f + 1) t c) := by
  induction f with
  | zero => intro t c; left; rfl
  | succ f ih =>
    intro t c
    rw [unmarshal.eq_def be junk env (f + 1), unmarshal.eq_def be junk env (f + 1 + 1)]
    dsimp only
    cases env t with
    | reference ch => exact ih ch c
    | pointer ch =>
      dsimp only
      split
      · exact Le.refl _
      · refine (Le.refl _).bind fun a => ?_
        split
        · exact Le.refl _
        · exact sizeOk_le (Le.refl _) ((ih _ _).bind fun a => Le.refl _)
    | struct fs => exact (uFields_le ih _ _ _).bind fun a => Le.refl _
    | fixedArray n ch =>
      refine sizeOk_le (Le.refl _) ?_
      split
      · exact (uElems_le (ih ch) _ _).bind fun a => Le.refl _
      · exact Le.refl _
    | varArray n ch =>
      refine sizeOk_le (Le.refl _) ((Le.refl _).bind fun a => ?_)
      split
      · exact Le.refl _
      · exact (uElems_le (ih ch) _ _).bind fun a => Le.refl _
    | dynArray ch =>
      refine (Le.refl _).bind fun a => ?_
      split
      · exact Le.refl _
      · exact sizeOk_le (Le.refl _) ((uElems_le (ih ch) _ _).bind fun a => Le.refl _)
    | _ => exact Le.refl _

theorem le_stable {α : Type} {call : Nat → Out α} (h : ∀ f, Le (call f) (call (f + 1))) {f0 : Nat} {r : Out α}
    (hr : call f0 = r) (hm : r ≠ .more) : Returns call r := by
  refine ⟨hm, f0, fun f hf => ?_⟩
  induction hf with
  | refl => exact hr
  | @step f _ ih =>
    rcases h f with h | h
    · rw [ih] at h; exact absurd h hm
    · rw [← h, ih]

/-- the outcome is unique -/
theorem returns_unique {α : Type} {call : Nat → Out α} {r r' : Out α} (h : Returns call r) (h' : Returns call r') : r = r' := by
  obtain ⟨_, f0, h⟩ := h
  obtain ⟨_, f1, h'⟩ := h'
  rw [← h (f0 + f1) (by omega), h' (f0 + f1) (by omega)]

/-! ## C21: marshal then unmarshal -/

/-- What marshalling does: the length is reported, the data is appended to the payload of the chain. -/
theorem C21_marshal {be : Bool} {env : Env} {t : Nat} {v : Val} {bs : List Byte} (h : Wire be env (.obj t v) bs) {c : Cur}
    (hc : Good c) :
    ∃ c', Returns (fun f => marshal be true env f t v c) (.ok (c', bs.length)) ∧ Good c' ∧ payload c' = payload c ++ bs := by
  obtain ⟨f0, h⟩ := marsh_wire h
  obtain ⟨c', h1, h2, h3⟩ := h f0 (Nat.le_refl _) c hc
  exact ⟨c', le_stable (fun f => marshal_le f t v c) h1 (by simp), h2, h3⟩

/-- What unmarshalling does, from any segmentation of the data: the value, and what follows is left. -/
theorem C21_unmarshal {be : Bool} {env : Env} {t : Nat} {v : Val} {bs : List Byte} (h : Wire be env (.obj t v) bs)
    {ch : Chain} (hc : NoEmpty ch) {rest : List Byte} (hd : ch.flatten = bs ++ rest) :
    ∃ ch', Returns (fun f => unmarshal be true env f t ch) (.ok (v, ch', bs.length)) ∧ NoEmpty ch' ∧ ch'.flatten = rest := by
  obtain ⟨f0, h⟩ := unm_wire h
  have h1 := (reads_obj (h f0 (Nat.le_refl _))).1 rest
  have h2 := unmarshal_same (be := be) (junk := true) (env := env) f0 t ch hc
  rw [hd, h1] at h2
  cases hu : unmarshal be true env f0 t ch with
  | ok x =>
    obtain ⟨v', ch', n⟩ := x
    rw [hu] at h2
    obtain ⟨rfl, rfl, hn, he⟩ := h2
    exact ⟨ch', le_stable (fun f => unmarshal_le f t ch) hu (by simp), hn, by simpa using he.symm⟩
  | _ => rw [hu] at h2; exact h2.elim

/-- The round trip: an object within its limits is marshalled into an empty packet buffer (with any
    room); unmarshalling the resulting chain yields the object, consuming exactly the bytes produced.
    Partial: the uninitialised `helper_type.is_have` is taken to be NULL (see `C21_uninitialised`), and both
    sides have the same byte order (see `C86_byte_order`). -/
theorem C21_round_trip_partial {be : Bool} {env : Env} {t : Nat} {v : Val} {bs : List Byte} (h : Wire be env (.obj t v) bs)
    (room : Nat) :
    ∃ c' ch', Returns (fun f => marshal be true env f t v ⟨[], ⟨[], room⟩, []⟩) (.ok (c', bs.length)) ∧
      Returns (fun f => unmarshal be true env f t (c'.chain.map Seg.data)) (.ok (v, ch', bs.length)) ∧ ch'.flatten = [] := by
  have hg : Good ⟨[], ⟨[], room⟩, []⟩ := ⟨by simp, by simp, by simp [Cur.chain]⟩
  obtain ⟨c', h1, h2, h3⟩ := C21_marshal h hg
  have hne : NoEmpty (c'.chain.map Seg.data) := by
    refine ⟨by simp [Cur.chain], fun s hs => ?_⟩
    rw [← List.map_tail] at hs
    obtain ⟨x, hx, rfl⟩ := List.mem_map.1 hs
    exact h2.used x hx
  have hp : (c'.chain.map Seg.data).flatten = bs ++ [] := by
    have : payload c' = _ := h3
    unfold payload at this
    rw [this]; simp [Cur.chain]
  obtain ⟨ch', h4, _, h5⟩ := C21_unmarshal h hne hp
  exact ⟨c', ch', h1, h4, h5⟩

/-- marshalling several objects, one after the other -/
def mAll (be : Bool) (env : Env) (f : Nat) : List (Nat × Val) → Cur → Marsh
  | [], c => .ok (c, 0)
  | (t, v) :: l, c => (marshal be true env f t v c).bind fun (c', n) => (mAll be env f l c').bind fun (c'', m) => .ok (c'', n + m)

/-- unmarshalling objects of the given types, one after the other -/
def uAll (be : Bool) (env : Env) (f : Nat) : List Nat → Chain → Unm (List Val)
  | [], c => .ok ([], c, 0)
  | t :: l, c => (unmarshal be true env f t c).bind fun (v, c', n) => (uAll be env f l c').bind fun (vs, c'', m) => .ok (v :: vs, c'', n + m)

/-- Several objects marshalled one after the other are unmarshalled in the same order, with their lengths. -/
theorem C21_sequence_partial {be : Bool} {env : Env} (objs : List (Nat × Val)) (wire : Nat × Val → List Byte)
    (h : ∀ o ∈ objs, Wire be env (.obj o.1 o.2) (wire o)) :
    (∀ c, Good c → ∃ c', Returns (fun f => mAll be env f objs c) (.ok (c', (objs.flatMap wire).length)) ∧ Good c' ∧
      payload c' = payload c ++ objs.flatMap wire) ∧
    ∀ ch rest, NoEmpty ch → ch.flatten = objs.flatMap wire ++ rest →
      ∃ ch', Returns (fun f => uAll be env f (objs.map (·.1)) ch) (.ok (objs.map (·.2), ch', (objs.flatMap wire).length)) ∧
        NoEmpty ch' ∧ ch'.flatten = rest := by
  induction objs with
  | nil =>
    exact ⟨fun c hc => ⟨c, ⟨by simp, 0, fun f _ => rfl⟩, hc, by simp⟩,
      fun ch rest hch hd => ⟨ch, ⟨by simp, 0, fun f _ => rfl⟩, hch, by simpa using hd⟩⟩
  | cons o objs ih =>
    obtain ⟨ih1, ih2⟩ := ih fun o ho => h o (by simp [ho])
    have ho := h o (by simp)
    constructor
    · intro c hc
      obtain ⟨c1, ⟨_, f1, h1⟩, h2, h3⟩ := C21_marshal ho hc
      obtain ⟨c2, ⟨_, f2, g1⟩, g2, g3⟩ := ih1 c1 h2
      refine ⟨c2, ⟨by simp, f1 + f2, fun f hf => ?_⟩, g2, by rw [g3, h3]; simp⟩
      have e1 := h1 f (by omega)
      have e2 := g1 f (by omega)
      dsimp only at e1 e2 ⊢
      simp only [mAll, e1, Out.bind, e2, List.flatMap_cons, List.length_append]
    · intro ch rest hch hd
      obtain ⟨c1, ⟨_, f1, h1⟩, h2, h3⟩ := C21_unmarshal ho hch (rest := objs.flatMap wire ++ rest) (by rw [hd]; simp)
      obtain ⟨c2, ⟨_, f2, g1⟩, g2, g3⟩ := ih2 c1 rest h2 h3
      refine ⟨c2, ⟨by simp, f1 + f2, fun f hf => ?_⟩, g2, g3⟩
      have e1 := h1 f (by omega)
      have e2 := g1 f (by omega)
      dsimp only at e1 e2 ⊢
      simp only [List.map_cons, uAll, e1, Out.bind, e2, List.flatMap_cons, List.length_append]

/-- Where the code breaks the round trip: `helper_type.is_have` is not initialised before it is tested; if it is
    not NULL by luck, an arbitrary address is called, for every pointer and every string. -/
theorem C21_uninitialised (be : Bool) (env : Env) (t : Nat) (o : Option Val) (s : Option (List Byte)) (c : Cur) (ch : Chain) :
    (∀ k, env t = .pointer k → Returns (fun f => marshal be false env f t (.ptr o) c) .ub ∧
      Returns (fun f => unmarshal be false env f t ch) .ub) ∧
    (env t = .string → Returns (fun f => marshal be false env f t (.str s) c) .ub ∧
      Returns (fun f => unmarshal be false env f t ch) .ub) := by
  refine ⟨fun k h => ⟨?_, ?_⟩, fun h => ⟨?_, ?_⟩⟩ <;>
  · refine ⟨by simp, 1, fun f hf => ?_⟩
    obtain ⟨f, rfl⟩ : ∃ g, f = g + 1 := ⟨f - 1, by omega⟩
    simp only [marshal, unmarshal, h, if_true]

/-! ## C22: truncated data -/

/-- A strict prefix of a marshalled object, in any segmentation, is refused with EMSGSIZE. -/
theorem C22_truncated_partial {be : Bool} {env : Env} {t : Nat} {v : Val} {bs : List Byte} (h : Wire be env (.obj t v) bs)
    {ch : Chain} (hc : NoEmpty ch) (k : Nat) (hk : k < bs.length) (hd : ch.flatten = bs.take k) :
    Returns (fun f => unmarshal be true env f t ch) (.err .emsgsize) := by
  obtain ⟨f0, h⟩ := unm_wire h
  have hcut : Cut (bs.take k) bs := ⟨bs.drop k, by
    intro hx; have := congrArg List.length hx; simp at this; omega, by simp⟩
  have h1 := (reads_obj (h f0 (Nat.le_refl _))).2 _ hcut
  have h2 := unmarshal_same (be := be) (junk := true) (env := env) f0 t ch hc
  rw [hd, h1] at h2
  cases hu : unmarshal be true env f0 t ch with
  | err e =>
    rw [hu] at h2
    have : e = .emsgsize := h2
    subst this
    exact le_stable (fun f => unmarshal_le f t ch) hu (by simp)
  | _ => rw [hu] at h2; exact h2.elim

/-! ## C23: segmentation -/

/-- The outcome depends on the bytes only, if the segments after the first are not empty. -/
theorem C23_segmentation_partial {be junk : Bool} {env : Env} (f t : Nat) (a b : Chain) (ha : NoEmpty a) (hb : NoEmpty b)
    (h : a.flatten = b.flatten) : seen (unmarshal be junk env f t a) = seen (unmarshal be junk env f t b) := by
  have key : ∀ {r1 r2 : Unm Val}, Same r1 r2 → seen r1 = seen r2 := by
    intro r1 r2 hs
    cases r1 <;> cases r2 <;> simp only [Same] at hs <;> try trivial
    · rename_i x y
      obtain ⟨x1, x2, x3⟩ := x
      obtain ⟨y1, y2, y3⟩ := y
      obtain ⟨h1, h2, _, h3⟩ := hs
      subst h1 h2 h3
      simp [seen]
    · rw [hs]
  rw [key (unmarshal_same f t a ha), key (unmarshal_same f t b hb), h]

/-- Where the code breaks it: the scan for a NUL reads the first byte of the next segment without looking
    whether there is one. -/
theorem C23_violated (be junk : Bool) (cap : Nat) (hcap : 2 ≤ cap) :
    ([[0x41], [], [0]] : Chain).flatten = ([[0x41, 0]] : Chain).flatten ∧
    Returns (fun f => unmarshal be junk (fun _ => .bytesNil cap) f 0 [[0x41], [], [0]]) .ub ∧
    Returns (fun f => unmarshal be junk (fun _ => .bytesNil cap) f 0 [[0x41, 0]]) (.ok (.str (some [0x41]), [[]], 2)) := by
  refine ⟨rfl, ⟨by simp, 1, fun f hf => ?_⟩, ⟨by simp, 1, fun f hf => ?_⟩⟩
  · obtain ⟨f, rfl⟩ : ∃ g, f = g + 1 := ⟨f - 1, by omega⟩
    rfl
  · obtain ⟨f, rfl⟩ : ∃ g, f = g + 1 := ⟨f - 1, by omega⟩
    have : strSize [[0x41, 0]] = .ok 2 := rfl
    simp only [unmarshal, this, Out.bind]
    rw [if_neg (by omega)]
    rfl

/-! ## C24: capacities -/

theorem bind_ok {α β : Type} {x : Out α} {k : α → Out β} {b : β} (h : x.bind k = .ok b) : ∃ a, x = .ok a ∧ k a = .ok b := by
  cases x with
  | ok a => exact ⟨a, rfl, h⟩
  | _ => simp [Out.bind] at h

theorem getBytes_length {c : Chain} : ∀ {n : Nat} {bs : List Byte} {c' : Chain}, getBytes c n = .ok (bs, c') → bs.length = n := by
  induction c with
  | nil => intro n bs c' h; simp [getBytes] at h
  | cons s rest ih =>
    intro n bs c' h
    by_cases hn : n ≤ s.length
    · rw [getBytes_le hn] at h
      simp only [Out.ok.injEq, Prod.mk.injEq] at h
      rw [← h.1]; simp; omega
    · cases rest with
      | nil => rw [getBytes_one, if_neg hn] at h; simp at h
      | cons s' rest =>
        rw [getBytes_more hn] at h
        obtain ⟨⟨b1, c1⟩, h1, h2⟩ := bind_ok h
        simp only [Out.ok.injEq, Prod.mk.injEq] at h2
        have := ih h1
        rw [← h2.1]; simp; omega

theorem get_length {c : Chain} {n : Nat} {bs : List Byte} {c' : Chain} {m : Nat} (h : get c n = .ok (bs, c', m)) : bs.length = n := by
  obtain ⟨⟨b1, c1⟩, h1, h2⟩ := bind_ok h
  simp only [Out.ok.injEq, Prod.mk.injEq] at h2
  rw [← h2.1]; exact getBytes_length h1

theorem unmarshal_fits {be junk : Bool} {env : Env} (f : Nat) : ∀ (t : Nat) (c : Chain) (v : Val) (c' : Chain) (n : Nat),
    unmarshal be junk env f t c = .ok (v, c', n) → Fits env (.obj t v) := by
  have h216 : (256 : Nat) ^ 2 = 65536 := rfl
  induction f with
  | zero => intro t c v c' n h; simp [unmarshal] at h
  | succ f ih =>
    have hel : ∀ (t k : Nat) (c : Chain) (vs : List Val) (c' : Chain) (n : Nat),
        uElems (unmarshal be junk env f t) k c = .ok (vs, c', n) → Fits env (.elems t vs) ∧ vs.length = k := by
      intro t k
      induction k with
      | zero => intro c vs c' n h; simp only [uElems, Out.ok.injEq, Prod.mk.injEq] at h; rw [← h.1]; exact ⟨.noElems, rfl⟩
      | succ k ihk =>
        intro c vs c' n h
        rw [uElems] at h
        obtain ⟨⟨v1, c1, n1⟩, h1, h⟩ := bind_ok h
        obtain ⟨⟨v2, c2, n2⟩, h2, h⟩ := bind_ok h
        simp only [Out.ok.injEq, Prod.mk.injEq] at h
        obtain ⟨i1, i2⟩ := ihk _ _ _ _ h2
        rw [← h.1]
        exact ⟨.elem (ih _ _ _ _ _ h1) i1, by simp [i2]⟩
    have hfl : ∀ (fs : List Field) (prev : List Val) (c : Chain) (vs : List Val) (c' : Chain) (n : Nat),
        uFields (unmarshal be junk env f) fs prev c = .ok (vs, c', n) → Fits env (.fields fs prev vs) := by
      intro fs
      induction fs with
      | nil => intro prev c vs c' n h; simp only [uFields, Out.ok.injEq, Prod.mk.injEq] at h; rw [← h.1]; exact .noFields
      | cons fd fs ihf =>
        intro prev c vs c' n h
        rw [uFields] at h
        split at h
        · rename_i hp
          obtain ⟨⟨v1, c1, n1⟩, h1, h⟩ := bind_ok h
          obtain ⟨⟨v2, c2, n2⟩, h2, h⟩ := bind_ok h
          simp only [Out.ok.injEq, Prod.mk.injEq] at h
          rw [← h.1]
          exact .field ((have_iff _ _).1 hp) (ih _ _ _ _ _ h1) (ihf _ _ _ _ _ h2)
        · rename_i hp
          obtain ⟨⟨v2, c2, n2⟩, h2, h⟩ := bind_ok h
          simp only [Out.ok.injEq, Prod.mk.injEq] at h
          rw [← h.1]
          exact .absentField (fun hc => hp ((have_iff _ _).2 hc)) (ihf _ _ _ _ _ h2)
    intro t c v c' n h
    rw [unmarshal] at h
    cases he : env t with
    | void => rw [he] at h; simp only [Out.ok.injEq, Prod.mk.injEq] at h; rw [← h.1]; exact .void he
    | int k =>
      rw [he] at h
      obtain ⟨⟨b, c1, n1⟩, h1, h⟩ := bind_ok h
      simp only [Out.ok.injEq, Prod.mk.injEq] at h
      rw [← h.1]
      refine .int he ?_
      rw [← get_length h1]; exact ofHost_lt be b
    | raw k =>
      rw [he] at h
      obtain ⟨⟨b, c1, n1⟩, h1, h⟩ := bind_ok h
      simp only [Out.ok.injEq, Prod.mk.injEq] at h
      rw [← h.1]
      exact .raw he (get_length h1)
    | pointer ch =>
      rw [he] at h
      dsimp only at h
      split at h
      · simp at h
      · obtain ⟨⟨b, c1, n1⟩, h1, h⟩ := bind_ok h
        dsimp only at h
        split at h
        · simp only [Out.ok.injEq, Prod.mk.injEq] at h
          rw [← h.1]; exact .null he
        · split at h
          · simp at h
          · simp at h
          · obtain ⟨⟨v2, c2, n2⟩, h2, h⟩ := bind_ok h
            simp only [Out.ok.injEq, Prod.mk.injEq] at h
            rw [← h.1]; exact .ptr he (ih _ _ _ _ _ h2)
    | reference ch => rw [he] at h; exact .ref he (ih _ _ _ _ _ h)
    | string => exact .str he
    | struct fs =>
      rw [he] at h
      obtain ⟨⟨b, c1, n1⟩, h1, h⟩ := bind_ok h
      simp only [Out.ok.injEq, Prod.mk.injEq] at h
      rw [← h.1]
      exact .struct he (hfl _ _ _ _ _ _ h1)
    | fixedBytes k =>
      rw [he] at h
      obtain ⟨⟨b, c1, n1⟩, h1, h⟩ := bind_ok h
      simp only [Out.ok.injEq, Prod.mk.injEq] at h
      rw [← h.1]
      exact .fixedBytes he (get_length h1)
    | varBytes cap =>
      rw [he] at h
      obtain ⟨⟨b, c1, n1⟩, h1, h⟩ := bind_ok h
      dsimp only at h
      split at h
      · simp at h
      · obtain ⟨⟨v2, c2, n2⟩, h2, h⟩ := bind_ok h
        simp only [Out.ok.injEq, Prod.mk.injEq] at h
        rw [← h.1]
        exact .varBytes he (by rw [get_length h2]; omega)
    | bytesNil cap =>
      rw [he] at h
      obtain ⟨sz, h1, h⟩ := bind_ok h
      dsimp only at h
      split at h
      · simp at h
      · obtain ⟨⟨v2, c2, n2⟩, h2, h⟩ := bind_ok h
        simp only [Out.ok.injEq, Prod.mk.injEq] at h
        have hl := get_length h2
        rw [← h.1]
        unfold cstr
        split
        · rename_i hz
          refine .bytesNil he ?_
          have hz' : (0 : Byte) ∈ v2 := by simpa using hz
          have : (v2.takeWhile (· != 0)).length < v2.length := by
            have hle := (List.takeWhile_prefix (p := (· != 0)) (l := v2)).length_le
            by_cases heq : (v2.takeWhile (· != 0)).length = v2.length
            · have hx := (List.takeWhile_prefix (p := (· != 0)) (l := v2)).eq_of_length heq
              rw [← hx] at hz'
              have := List.all_takeWhile (p := (· != 0)) (l := v2)
              rw [List.all_eq_true] at this
              have := this 0 hz'
              simp at this
            · omega
          omega
        · exact .bytesNoNil he (by omega)
    | dynBytes =>
      rw [he] at h
      obtain ⟨⟨b, c1, n1⟩, h1, h⟩ := bind_ok h
      obtain ⟨⟨v2, c2, n2⟩, h2, h⟩ := bind_ok h
      simp only [Out.ok.injEq, Prod.mk.injEq] at h
      rw [← h.1]
      refine .dynBytes he ?_
      have := ofHost_lt be b
      rw [get_length h1] at this
      rw [get_length h2]; omega
    | fixedArray k ch =>
      rw [he] at h
      dsimp only at h
      split at h
      · simp at h
      · simp at h
      · split at h
        · obtain ⟨⟨v2, c2, n2⟩, h2, h⟩ := bind_ok h
          simp only [Out.ok.injEq, Prod.mk.injEq] at h
          rw [← h.1]
          exact .fixedArray he (hel _ _ _ _ _ _ h2).2 (hel _ _ _ _ _ _ h2).1
        · simp at h
    | varArray cap ch =>
      rw [he] at h
      dsimp only at h
      split at h
      · simp at h
      · simp at h
      · obtain ⟨⟨b, c1, n1⟩, h1, h⟩ := bind_ok h
        dsimp only at h
        split at h
        · simp at h
        · obtain ⟨⟨v2, c2, n2⟩, h2, h⟩ := bind_ok h
          simp only [Out.ok.injEq, Prod.mk.injEq] at h
          rw [← h.1]
          exact .varArray he (by rw [(hel _ _ _ _ _ _ h2).2]; omega) (hel _ _ _ _ _ _ h2).1
    | dynArray ch =>
      rw [he] at h
      obtain ⟨⟨b, c1, n1⟩, h1, h⟩ := bind_ok h
      dsimp only at h
      split at h
      · simp only [Out.ok.injEq, Prod.mk.injEq] at h
        rw [← h.1]
        exact .dynArray he (by simp) .noElems
      · split at h
        · simp at h
        · simp at h
        · obtain ⟨⟨v2, c2, n2⟩, h2, h⟩ := bind_ok h
          simp only [Out.ok.injEq, Prod.mk.injEq] at h
          rw [← h.1]
          refine .dynArray he ?_ (hel _ _ _ _ _ _ h2).1
          have := ofHost_lt be b
          rw [get_length h1] at this
          rw [(hel _ _ _ _ _ _ h2).2]; omega
    | unknown => rw [he] at h; simp at h

/-- Whatever bytes arrive: an object delivered by unmarshalling respects every declared capacity. -/
theorem C24_capacities {be junk : Bool} {env : Env} {t : Nat} {c : Chain} {v : Val} {c' : Chain} {n : Nat}
    (h : Returns (fun f => unmarshal be junk env f t c) (.ok (v, c', n))) : Fits env (.obj t v) := by
  obtain ⟨_, f0, h⟩ := h
  exact unmarshal_fits f0 _ _ _ _ _ (h f0 (Nat.le_refl _))

/-- A count above the capacity is refused with ENOSPC, wherever the data is cut into segments. -/
theorem C24_refused {be junk : Bool} {env : Env} {t cap n : Nat} (hn : n < 65536) (hcap : cap < n) {c : Chain} (hc : NoEmpty c)
    {rest : List Byte} (hd : c.flatten = hostBytes be 2 n ++ rest) :
    (env t = .varBytes cap → Returns (fun f => unmarshal be junk env f t c) (.err .enospc)) ∧
    (∀ ch, env t = .varArray cap ch → Known env ch → Returns (fun f => unmarshal be junk env f t c) (.err .enospc)) := by
  have hv := ofHost_hostBytes be 2 n hn
  have i1 := (reads_get _ _ (hostBytes_length be 2 n)).1 rest
  have hg : ∃ c', get c 2 = .ok (hostBytes be 2 n, c', 2) := by
    have h2 := get_same hc 2
    dsimp only at i1
    rw [hd, i1] at h2
    cases hu : get c 2 with
    | ok x =>
      obtain ⟨x1, x2, x3⟩ := x
      rw [hu] at h2
      obtain ⟨rfl, rfl, _, _⟩ := h2
      exact ⟨x2, by rw [hostBytes_length]⟩
    | _ => rw [hu] at h2; exact h2.elim
  obtain ⟨c', hg⟩ := hg
  constructor
  · intro he
    refine ⟨by simp, 1, fun f hf => ?_⟩
    obtain ⟨f, rfl⟩ : ∃ g, f = g + 1 := ⟨f - 1, by omega⟩
    simp only [unmarshal, he, hg, Out.bind, hv]
    rw [if_pos (by omega)]
  · intro ch he hk
    obtain ⟨f1, hs⟩ := known_sizeOk hk
    refine ⟨by simp, f1 + 1, fun f hf => ?_⟩
    obtain ⟨f, rfl⟩ : ∃ g, f = g + 1 := ⟨f - 1, by omega⟩
    simp only [unmarshal, he, hs f (by omega), hg, Out.bind, hv]
    rw [if_pos (by omega)]

/-- A string that does not fit a fixed buffer, with its NUL, is refused with ENOSPC. -/
theorem C24_string_refused {be junk : Bool} {env : Env} {t cap : Nat} (he : env t = .bytesNil cap) {s : List Byte} (h0 : 0 ∉ s)
    (hl : s.length + 1 < 65536) (hcap : cap < s.length + 1) {c : Chain} (hc : NoEmpty c) {rest : List Byte}
    (hd : c.flatten = s ++ [0] ++ rest) : Returns (fun f => unmarshal be junk env f t c) (.err .enospc) := by
  refine ⟨by simp, 1, fun f hf => ?_⟩
  obtain ⟨f, rfl⟩ : ∃ g, f = g + 1 := ⟨f - 1, by omega⟩
  simp only [unmarshal, he, strSize_same hc, hd, strSize_str h0, Out.bind, Nat.mod_eq_of_lt hl]
  rw [if_pos (by omega)]

/-! ## C86: strings delivered are terminated -/

/-- Every string of less than 65536 bytes with its NUL is delivered terminated. -/
theorem C86_terminated_partial {be : Bool} {env : Env} {t : Nat} {s : List Byte} (h0 : 0 ∉ s) (hl : s.length + 1 < 65536)
    {c : Chain} (hc : NoEmpty c) {rest : List Byte} :
    (∀ cap, env t = .bytesNil cap → s.length + 1 ≤ cap → c.flatten = s ++ [0] ++ rest →
      ∃ c', Returns (fun f => unmarshal be true env f t c) (.ok (.str (some s), c', s.length + 1))) ∧
    (env t = .string → c.flatten = 1 :: (s ++ [0]) ++ rest →
      ∃ c', Returns (fun f => unmarshal be true env f t c) (.ok (.str (some s), c', s.length + 2))) := by
  constructor
  · intro cap he h1 hd
    obtain ⟨c', h, _⟩ := C21_unmarshal (be := be) (env := env) (t := t) (.bytesNil he h1 hl h0) hc hd
    exact ⟨c', by simpa using h⟩
  · intro he hd
    obtain ⟨c', h, _⟩ := C21_unmarshal (be := be) (env := env) (t := t) (.str he hl h0) hc hd
    exact ⟨c', by simpa using h⟩

/-- Where the code breaks it: the size is truncated to 16 bits, so that a string of 65536 + k bytes is
    accepted by a buffer for k + 1 bytes, which it fills without a NUL. -/
theorem C86_unterminated (be junk : Bool) (k : Nat) (hk : k + 1 < 65536) :
    ∃ c, Returns (fun f => unmarshal be junk (fun _ => .bytesNil (k + 1)) f 0 [List.replicate (65536 + k) 0x41 ++ [0]])
      (.ok (.bytes (List.replicate (k + 1) 0x41), c, k + 1)) := by
  have h0 : (0 : Byte) ∉ List.replicate (65536 + k) 0x41 := by
    intro h; have := (List.mem_replicate.1 h).2; revert this; decide
  refine ⟨[List.replicate 65535 0x41 ++ [0]], nofun, 1, fun f hf => ?_⟩
  obtain ⟨f, rfl⟩ : ∃ g, f = g + 1 := ⟨f - 1, by omega⟩
  have h1 := strSize_str (rest := []) h0
  simp only [List.append_nil, List.length_replicate] at h1
  have h2 : (65536 + k + 1) % 65536 = k + 1 := by omega
  simp only [unmarshal, h1, Out.bind, h2, get, getBytes_one]
  rw [if_neg (by omega), if_pos (by rw [List.length_append, List.length_replicate]; omega)]
  dsimp only
  rw [List.take_append_of_le_length (by rw [List.length_replicate]; omega), List.drop_append_of_le_length (by rw [List.length_replicate]; omega)]
  rw [List.take_replicate, List.drop_replicate]
  have e1 : min (k + 1) (65536 + k) = k + 1 := by omega
  have e2 : 65536 + k - (k + 1) = 65535 := by omega
  rw [e1, e2]
  have : cstr (List.replicate (k + 1) 0x41) = .bytes (List.replicate (k + 1) 0x41) := by
    unfold cstr
    rw [if_neg]
    simp only [List.contains_iff_mem, List.mem_replicate]
    intro h; exact absurd h.2 (by decide)
  rw [this]

/-! ## C87: byte order -/

/-- The marshalled form of an integer is its big-endian form on a big-endian machine. -/
theorem C87_big_endian_partial {env : Env} {t k n : Nat} (he : env t = .int k) (hn : n < 256 ^ k) {c : Cur} (hc : Good c) :
    ∃ c', Returns (fun f => marshal true true env f t (.num n) c) (.ok (c', k)) ∧ payload c' = payload c ++ (leBytes k n).reverse := by
  obtain ⟨c', h1, _, h3⟩ := C21_marshal (be := true) (.int he hn) hc
  exact ⟨c', by simpa [hostBytes_length] using h1, by simpa [hostBytes] using h3⟩

/-- Where the code breaks it: a little-endian machine sends little-endian data, so that machines of
    different kinds misread each other. -/
theorem C87_byte_order :
    ∃ c', Returns (fun f => marshal false true (fun _ => .int 2) f 0 (.num 1) ⟨[], ⟨[], 16⟩, []⟩) (.ok (c', 2)) ∧
      payload c' = [1, 0] ∧
      Returns (fun f => unmarshal true true (fun _ => .int 2) f 0 [payload c']) (.ok (.num 256, [[]], 2)) := by
  refine ⟨⟨[], ⟨[1, 0], 14⟩, []⟩, ⟨by simp, 1, fun f hf => ?_⟩, rfl, ⟨by simp, 1, fun f hf => ?_⟩⟩
  · obtain ⟨f, rfl⟩ : ∃ g, f = g + 1 := ⟨f - 1, by omega⟩
    rfl
  · obtain ⟨f, rfl⟩ : ∃ g, f = g + 1 := ⟨f - 1, by omega⟩
    rfl

/-! ## Examples: the hypotheses are met by concrete descriptors and values -/
namespace Examples

/-- 0: a linked list `struct { int16; struct list *next; }`; 3: a record with an optional field (present iff the
    first byte is 1), a variable array of strings and a fixed buffer. -/
def env : Env
  | 0 => .struct [⟨1, none⟩, ⟨2, none⟩]
  | 1 => .int 2
  | 2 => .pointer 0
  | 3 => .struct [⟨4, none⟩, ⟨1, some fun prev => match prev with | [.num 1] => true | _ => false⟩, ⟨5, none⟩, ⟨7, none⟩]
  | 4 => .int 1
  | 5 => .varArray 3 6
  | 6 => .string
  | 7 => .bytesNil 4
  | 8 => .varBytes 2
  | _ => .void

def list12 : Val := .struct [.num 1, .ptr (some (.struct [.num 2, .ptr none]))]

theorem known0 : Known env 0 := .leaf (by simp [env]) (by simp [env]) (by simp [env]) (by simp [env])
theorem known6 : Known env 6 := .leaf (by simp [env]) (by simp [env]) (by simp [env]) (by simp [env])

theorem env0 : env 0 = .struct [⟨1, none⟩, ⟨2, none⟩] := rfl
theorem env3 : env 3 = .struct [⟨4, none⟩, ⟨1, some fun prev => match prev with | [.num 1] => true | _ => false⟩, ⟨5, none⟩, ⟨7, none⟩] := rfl

theorem wireList : Wire false env (.obj 0 list12) [1, 0, 1, 2, 0, 0] := by
  have h2 : Wire false env (.obj 0 (.struct [.num 2, .ptr none])) ([2, 0] ++ ([0] ++ [])) :=
    .struct env0 (.field (by simp [present]) (.int (k := 2) rfl (by decide)) (.field (by simp [present]) (.null (c := 0) rfl) .noFields))
  exact .struct (bs := [1, 0] ++ ([1, 2, 0, 0] ++ [])) env0
    (.field (by simp [present]) (.int (be := false) (env := env) (t := 1) (k := 2) (n := 1) rfl (by decide)) (.field (by simp [present]) (.ptr (c := 0) rfl known0 h2) .noFields))

def record : Val := .struct [.num 0, .absent, .arr [.str (some [0x68, 0x69]), .str none], .str (some [0x61])]

theorem wireRecord : Wire false env (.obj 3 record) [0, 2, 0, 1, 0x68, 0x69, 0, 0, 0x61, 0] := by
  refine .struct (bs := [0] ++ ([2, 0, 1, 0x68, 0x69, 0, 0] ++ ([0x61, 0] ++ []))) env3 ?_
  refine .field (by simp [present]) (.int (k := 1) rfl (by decide)) ?_
  refine .absentField (fun h => absurd (h _ rfl) (by simp)) ?_
  refine .field (by simp [present]) ?_ ?_
  · refine .varArray (t := 5) (cap := 3) (c := 6) (vs := [.str (some [0x68, 0x69]), .str none])
      (bs := [1, 0x68, 0x69, 0] ++ ([0] ++ [])) (show env 5 = .varArray 3 6 from rfl) known6 (by decide) (by decide) ?_
    exact .elem (.str rfl (by decide) (by decide)) (.elem (.nullStr rfl) .noElems)
  · exact .field (by simp [present]) (.bytesNil (cap := 4) rfl (by decide) (by decide) (by decide)) .noFields

/-- a chain of two segments, data at the end -/
theorem goodChain : Good ⟨[⟨[9], 0⟩], ⟨[8, 7], 3⟩, []⟩ := ⟨by simp, by simp, by simp [Cur.chain]⟩

example := C21_round_trip_partial wireList 4
example := C21_marshal wireRecord goodChain
example := C21_unmarshal (ch := [[0, 2], [0, 1, 0x68], [0x69, 0, 0, 0x61, 0, 5]]) wireRecord ⟨by simp, by simp⟩ (rest := [5]) rfl
example := C21_sequence_partial (be := false) [(0, list12), (3, record)]
  (fun o => if o.1 = 0 then [1, 0, 1, 2, 0, 0] else [0, 2, 0, 1, 0x68, 0x69, 0, 0, 0x61, 0])
  (by intro o ho; rcases List.mem_cons.1 ho with rfl | ho
      · exact wireList
      · rw [List.mem_singleton.1 ho]; exact wireRecord)
example := C22_truncated_partial (ch := [[0, 2], [0, 1, 0x68]]) wireRecord ⟨by simp, by simp⟩ 5 (by decide) rfl
example := C23_segmentation_partial (be := false) (junk := true) (env := env) 9 3 [[0, 2], [0, 1]] [[], [0], [2, 0, 1]] ⟨by simp, by simp⟩ ⟨by simp, by simp⟩ rfl
example := C23_violated false true 2 (by decide)
/-- an object that is delivered -/
example : Fits env (.obj 0 list12) :=
  (C21_unmarshal (ch := [[1, 0, 1, 2, 0, 0]]) wireList ⟨by simp, by simp⟩ (rest := []) rfl).elim fun _ h => C24_capacities h.1
/-- three bytes announced for an array of two -/
example : Returns (fun f => unmarshal false true env f 8 [[3], [0, 1, 2, 3]]) (.err .enospc) :=
  (C24_refused (n := 3) (cap := 2) (by decide) (by decide) ⟨by simp, by simp⟩ (rest := [1, 2, 3]) rfl).1 rfl
example : Returns (fun f => unmarshal false true env f 5 [[4, 0]]) (.err .enospc) :=
  (C24_refused (n := 4) (cap := 3) (by decide) (by decide) ⟨by simp, by simp⟩ (rest := []) rfl).2 6 rfl known6
example : Returns (fun f => unmarshal false true env f 7 [[1, 2, 3], [4, 0]]) (.err .enospc) :=
  C24_string_refused (t := 7) (cap := 4) rfl (s := [1, 2, 3, 4]) (by decide) (by decide) (by decide) ⟨by simp, by simp⟩ (rest := []) rfl
example := (C86_terminated_partial (be := false) (env := env) (t := 7) (s := [1, 2]) (c := [[1, 2, 0]]) (by decide) (by decide) ⟨by simp, by simp⟩ (rest := [])).1 4 rfl (by decide) rfl
example := C86_unterminated false true 7 (by decide)
example := C87_big_endian_partial (env := env) (t := 1) (k := 2) (n := 1) rfl (by decide) goodChain

end Examples

/-- The size of an array or of what a reference names is known exactly if the size of the element type is. -/
theorem sizeOk_unknown {env : Env} {f t : Nat} (h : env t = .unknown) : sizeOk env (f + 1) t = some false := by simp [sizeOk, h]

/-- **C24**: arrays and pointers to a type that the library does not know cannot be transferred: nothing is stored behind the pointer, no element is read or written, on either side. -/
theorem C24_unknown {be junk : Bool} {env : Env} {t ch n : Nat} (f : Nat) (hu : env ch = .unknown) (vs : List Val) (cu : Cur) (c : Chain) :
    (env t = .fixedArray n ch → marshal be junk env (f + 2) t (.arr vs) cu = .bogus ∧ unmarshal be junk env (f + 2) t c = .bogus) ∧
    (env t = .varArray n ch → marshal be junk env (f + 2) t (.arr vs) cu = .bogus ∧ unmarshal be junk env (f + 2) t c = .bogus) ∧
    (marshal be junk env (f + 1) ch (.arr vs) cu = .err .einval ∧ unmarshal be junk env (f + 1) ch c = .err .einval) := by
  have h := sizeOk_unknown (f := f) hu
  refine ⟨fun he => ?_, fun he => ?_, ?_⟩
  · simp [marshal, unmarshal, he, h]
  · simp [marshal, unmarshal, he, h]
  · simp [marshal, unmarshal, hu]

end Verif.Marshal
