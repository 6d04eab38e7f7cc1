import Verif.Inet
namespace Verif.Inet

/-! ## Specification -/

/-- An address of `n` bytes. -/
def IsAddr (n : Nat) (a : List Nat) : Prop := a.length = n ∧ ∀ b ∈ a, b < 256

/-- Canonical dotted quad: the decimal numerals of the bytes separated by dots. -/
def dotted (a : List Nat) : List Char := List.intercalate ['.'] (a.map (Nat.toDigits 10))

/-- `c` is the hexadecimal digit `d`, in either case. -/
def IsHexDigit (c : Char) (d : Nat) : Prop := d < 16 ∧ (c = Nat.digitChar d ∨ c = (Nat.digitChar d).toUpper)

/-- `g` is a hexadecimal numeral of value `v`. -/
inductive HexNum : List Char → Nat → Prop
  | nil : HexNum [] 0
  | snoc {g v c d} : HexNum g v → IsHexDigit c d → HexNum (g ++ [c]) (16 * v + d)

/-- A 16-bit group: one to four hexadecimal digits. -/
def Group (g : List Char) (v : Nat) : Prop := HexNum g v ∧ 1 ≤ g.length ∧ g.length ≤ 4

/-- Colon-separated groups denoting a byte string. -/
inductive Groups : List Char → List Nat → Prop
  | one {g v} : Group g v → Groups g [v / 256, v % 256]
  | cons {g v s bs} : Group g v → Groups s bs → Groups (g ++ ':' :: s) (v / 256 :: v % 256 :: bs)

/-- Colon-separated groups, the last two of which may be written as a dotted quad. -/
inductive Tail : List Char → List Nat → Prop
  | one {g v} : Group g v → Tail g [v / 256, v % 256]
  | quad {a} : IsAddr 4 a → Tail (dotted a) a
  | cons {g v s bs} : Group g v → Tail s bs → Tail (g ++ ':' :: s) (v / 256 :: v % 256 :: bs)

/-- The textual IPv6 forms of RFC 4291 section 2.2: sixteen bytes written out, or a "::" standing for
    one or more omitted zero bytes between two (possibly empty) parts. -/
inductive V6Text : List Char → List Nat → Prop
  | full {s a} : Tail s a → a.length = 16 → V6Text s a
  | compressed {l lb r rb} (k : Nat) : (l = [] ∧ lb = [] ∨ Groups l lb) → (r = [] ∧ rb = [] ∨ Tail r rb) →
      0 < k → lb.length + k + rb.length = 16 →
      V6Text (l ++ ':' :: ':' :: r) (lb ++ List.replicate k 0 ++ rb)

/-! ## IPv4 -/

theorem decVal_digit (d : Nat) (h : d < 10) : decVal (Nat.digitChar d) = some d := by
  rcases d with _|_|_|_|_|_|_|_|_|_|d <;> first | rfl | omega

theorem decVal_some {c : Char} {d : Nat} (h : decVal c = some d) : d < 10 ∧ c = Nat.digitChar d := by
  unfold decVal at h
  split at h
  · rename_i hc
    simp at h
    have h0 : '0'.toNat = 48 := rfl
    have h9 : '9'.toNat = 57 := rfl
    have hd : d < 10 := by omega
    refine ⟨hd, ?_⟩
    have : c.toNat = d + 48 := by omega
    have hc2 : c = Char.ofNat (d + 48) := by rw [← this, Char.ofNat_toNat]
    rw [hc2]
    rcases d with _|_|_|_|_|_|_|_|_|_|d <;> first | rfl | omega
  · simp at h

theorem toDigits_snoc (b n d : Nat) (hb : 1 < b) (hn : 0 < n) (hd : d < b) :
    Nat.toDigits b n ++ [Nat.digitChar d] = Nat.toDigits b (n * b + d) := by
  have := Nat.toDigits_append_toDigits hb hn hd
  rw [Nat.toDigits_of_lt_base hd] at this
  rw [this, Nat.mul_comm]

/-- text of the finished octets -/
def pre (done : List Nat) : List Char := done.flatMap fun d => Nat.toDigits 10 d ++ ['.']

theorem pre_snoc (done : List Nat) (c : Nat) : pre (done ++ [c]) = pre done ++ (Nat.toDigits 10 c ++ ['.']) := by
  simp [pre]

theorem dotted4 (a b c d : Nat) : dotted [a,b,c,d] = quad [a,b,c,d] := by
  simp [dotted, quad, List.intercalate, List.intersperse]

theorem dotted_snoc (done : List Nat) (c : Nat) (h : done.length = 3) :
    dotted (done ++ [c]) = pre done ++ Nat.toDigits 10 c := by
  match done, h with
  | [x,y,z], _ => simp [dotted, pre, List.intercalate, List.intersperse]

theorem pton4Loop_sound (s : List Char) : ∀ (done : List Nat) (cur : Nat) (saw : Bool) (octets : Nat) (a : List Nat),
    octets = done.length + (if saw then 1 else 0) → octets ≤ 4 → cur < 256 → (saw = false → cur = 0 ∧ octets ≤ 3) →
    (∀ d ∈ done, d < 256) →
    pton4Loop done cur saw octets s = some a →
    IsAddr 4 a ∧ (pre done ++ (if saw then Nat.toDigits 10 cur else [])) ++ s = dotted a := by
  induction s with
  | nil =>
    intro done cur saw octets a ho h4 hc h0 hd h
    simp only [pton4Loop] at h
    split at h
    · simp at h
    · simp at h
      subst h
      cases saw with
      | false => have := (h0 rfl).2; omega
      | true =>
        simp at ho
        have hl : done.length = 3 := by omega
        refine ⟨⟨by simp [hl], ?_⟩, ?_⟩
        · intro b hb
          simp at hb
          rcases hb with hb | hb
          · exact hd b hb
          · omega
        · rw [dotted_snoc _ _ hl]; simp
  | cons c rest ih =>
    intro done cur saw octets a ho h4 hc h0 hd h
    simp only [pton4Loop] at h
    cases hv : decVal c with
    | some d =>
      obtain ⟨hd10, hceq⟩ := decVal_some hv
      simp only [hv] at h
      cases saw with
      | false =>
        have : cur = 0 := (h0 rfl).1
        subst this
        simp at h
        have := ih done d true (octets+1) a (by simp at ho ⊢; omega) (by omega) (by omega) (by simp) hd h.2.2
        refine ⟨this.1, ?_⟩
        rw [← this.2, hceq, Nat.toDigits_of_lt_base hd10]
        simp
      | true =>
        simp at h
        have := ih done (cur*10+d) true octets a (by simpa using ho) (by omega) (by omega) (by simp) hd h.2.2
        refine ⟨this.1, ?_⟩
        rw [← this.2, hceq]
        simp only [if_true]
        rw [← toDigits_snoc 10 cur d (by omega) (by omega) hd10]
        simp
    | none =>
      simp only [hv] at h
      split at h
      · rename_i hdot
        obtain ⟨rfl, rfl⟩ := hdot
        split at h
        · simp at h
        · simp at ho
          have := ih (done ++ [cur]) 0 false octets a (by simp; omega) (by omega) (by omega) (by simp; omega) (by
            intro b hb; simp at hb; rcases hb with hb | hb
            · exact hd b hb
            · omega) h
          refine ⟨this.1, ?_⟩
          rw [← this.2, pre_snoc]
          simp
      · simp at h


theorem pton4Loop_digits (ds : List Nat) (hds : ∀ d ∈ ds, d < 10) : ∀ (done : List Nat) (cur octets : Nat) (rest : List Char),
    0 < cur → ds.foldl (fun v d => v * 10 + d) cur < 256 →
    pton4Loop done cur true octets (ds.map Nat.digitChar ++ rest) =
      pton4Loop done (ds.foldl (fun v d => v * 10 + d) cur) true octets rest := by
  induction ds with
  | nil => intros; rfl
  | cons d ds ih =>
    intro done cur octets rest hc hlt
    have hd : d < 10 := hds d (by simp)
    have hge : cur * 10 + d ≤ (ds.foldl (fun v d => v * 10 + d) (cur * 10 + d)) := by
      have : ∀ (l : List Nat) (v : Nat), v ≤ l.foldl (fun v d => v * 10 + d) v := by
        intro l
        induction l with
        | nil => intro v; simp
        | cons x l ih => intro v; simp only [List.foldl_cons]; have := ih (v*10+x); omega
      exact this _ _
    simp only [List.foldl_cons] at hlt
    simp only [List.map_cons, List.cons_append, pton4Loop, decVal_digit d hd, List.foldl_cons]
    rw [if_neg (by simp; omega), if_neg (by omega), if_pos trivial]
    exact ih (fun x hx => hds x (by simp [hx])) done _ octets rest (by omega) hlt

theorem pton4Loop_num (n : Nat) (hn : n < 256) (done : List Nat) (octets : Nat) (ho : octets + 1 ≤ 4) (rest : List Char) :
    pton4Loop done 0 false octets (Nat.toDigits 10 n ++ rest) = pton4Loop done n true (octets + 1) rest := by
  have step : ∀ d, d < 10 → ∀ r, pton4Loop done 0 false octets (Nat.digitChar d :: r) = pton4Loop done d true (octets+1) r := by
    intro d hd r
    simp only [pton4Loop, decVal_digit d hd]
    rw [if_neg (by simp), if_neg (by omega), if_neg (by simp), if_neg (by omega)]
    simp
  by_cases h1 : n < 10
  · rw [Nat.toDigits_of_lt_base h1]; exact step n h1 rest
  · by_cases h2 : n < 100
    · rw [Nat.toDigits_of_base_le (by omega) (by omega), Nat.toDigits_of_lt_base (by omega)]
      simp only [List.cons_append, List.nil_append]
      rw [step _ (by omega)]
      have := pton4Loop_digits [n % 10] (by simp; omega) done (n/10) (octets+1) rest (by omega) (by simp; omega)
      simp only [List.map_cons, List.map_nil, List.cons_append, List.nil_append, List.foldl_cons, List.foldl_nil] at this
      rw [this, show n / 10 * 10 + n % 10 = n by omega]
    · rw [Nat.toDigits_of_base_le (by omega) (by omega), Nat.toDigits_of_base_le (by omega) (by omega), Nat.toDigits_of_lt_base (by omega)]
      simp only [List.cons_append, List.nil_append]
      rw [step _ (by omega)]
      have := pton4Loop_digits [n / 10 % 10, n % 10] (by simp; omega) done (n/10/10) (octets+1) rest (by omega) (by simp; omega)
      simp only [List.map_cons, List.map_nil, List.cons_append, List.nil_append, List.foldl_cons, List.foldl_nil] at this
      rw [this, show (n / 10 / 10 * 10 + n / 10 % 10) * 10 + n % 10 = n by omega]

theorem pton4Loop_dot (done : List Nat) (cur octets : Nat) (h : octets < 4) (rest : List Char) :
    pton4Loop done cur true octets ('.' :: rest) = pton4Loop (done ++ [cur]) 0 false octets rest := by
  have : decVal '.' = none := by decide
  simp only [pton4Loop, this]
  rw [if_pos (by simp), if_neg (by omega)]

theorem pton4_quad (a b c d : Nat) (ha : a < 256) (hb : b < 256) (hc : c < 256) (hd : d < 256) :
    pton4 (quad [a,b,c,d]) = some [a,b,c,d] := by
  simp only [pton4, quad, List.getD_cons_zero, List.getD_cons_succ]
  rw [pton4Loop_num a ha _ _ (by omega), pton4Loop_dot _ _ _ (by omega),
      pton4Loop_num b hb _ _ (by omega), pton4Loop_dot _ _ _ (by omega),
      pton4Loop_num c hc _ _ (by omega), pton4Loop_dot _ _ _ (by omega)]
  have := pton4Loop_num d hd ([] ++ [a] ++ [b] ++ [c]) 3 (by omega) []
  rw [List.append_nil] at this
  rw [this]
  simp [pton4Loop]

theorem isAddr4 {a : List Nat} (h : IsAddr 4 a) : ∃ x y z w, a = [x,y,z,w] ∧ x < 256 ∧ y < 256 ∧ z < 256 ∧ w < 256 := by
  obtain ⟨hl, hb⟩ := h
  match a, hl with
  | [x,y,z,w], _ => exact ⟨x,y,z,w,rfl, hb x (by simp), hb y (by simp), hb z (by simp), hb w (by simp)⟩

/-- C64. For every string, the parser accepts it as the address `a` exactly when the string is the
    canonical dotted quad of the four bytes of `a` (no leading zeros, no shorthand, no trailing garbage);
    and the text produced for an address (with room for it) is that dotted quad, so it parses back. -/
theorem C64_ipv4_text (s : List Char) (a : List Nat) :
    (pton .inet s = .one a ↔ IsAddr 4 a ∧ s = dotted a) ∧
    (IsAddr 4 a → ∀ size : Int, 16 ≤ size → ∃ t, ntop .inet a size = .ok t ∧ pton .inet t = .one a) := by
  have key : pton .inet s = .one a ↔ pton4 s = some a := by
    simp only [pton]; cases pton4 s <;> simp
  constructor
  · rw [key]
    constructor
    · intro h
      have := pton4Loop_sound s [] 0 false 0 a (by simp) (by omega) (by omega) (by simp) (by simp) h
      simpa [pre] using this
    · rintro ⟨h, rfl⟩
      obtain ⟨x,y,z,w,rfl,hx,hy,hz,hw⟩ := isAddr4 h
      rw [dotted4]
      exact pton4_quad _ _ _ _ hx hy hz hw
  · intro h size hs
    obtain ⟨x,y,z,w,rfl,hx,hy,hz,hw⟩ := isAddr4 h
    refine ⟨quad [x,y,z,w], ?_, ?_⟩
    · have l : ∀ n, n < 256 → (Nat.toDigits 10 n).length ≤ 3 := fun n hn =>
        (Nat.length_toDigits_le_iff (by omega) (by omega)).2 (by omega)
      have h1 := l x hx; have h2 := l y hy; have h3 := l z hz; have h4 := l w hw
      simp only [ntop, ntop4]
      rw [if_neg]
      simp only [quad, List.length_append, List.length_cons, List.getD_cons_zero, List.getD_cons_succ]
      omega
    · simp only [pton, pton4_quad _ _ _ _ hx hy hz hw]

/-! ## IPv6 -/

theorem hexVal_iff (c : Char) (d : Nat) : hexVal c = some d ↔ IsHexDigit c d := by
  constructor
  · intro h
    have key : ∀ n : Nat, n < 128 → ∀ d, hexVal (Char.ofNat n) = some d →
        d < 16 ∧ (Char.ofNat n = Nat.digitChar d ∨ Char.ofNat n = (Nat.digitChar d).toUpper) := by
      intro n hn d hd
      have hlt : ∀ m : Fin 128, ∀ d, hexVal (Char.ofNat m) = some d → d < 16 := by
        intro m d h
        unfold hexVal at h
        have h0 : '0'.toNat = 48 := rfl
        have h1 : '9'.toNat = 57 := rfl
        have h2 : 'a'.toNat = 97 := rfl
        have h3 : 'f'.toNat = 102 := rfl
        have h4 : 'A'.toNat = 65 := rfl
        have h5 : 'F'.toNat = 70 := rfl
        split at h
        · simp at h; omega
        · split at h
          · simp at h; omega
          · split at h
            · simp at h; omega
            · simp at h
      have hd16 := hlt ⟨n, hn⟩ d hd
      refine ⟨hd16, ?_⟩
      have : ∀ m : Fin 128, ∀ e : Fin 16, hexVal (Char.ofNat m) = some e.val →
        (Char.ofNat m = Nat.digitChar e ∨ Char.ofNat m = (Nat.digitChar e).toUpper) := by decide +kernel
      exact this ⟨n, hn⟩ ⟨d, hd16⟩ hd
    have hc : c.toNat < 128 := by
      unfold hexVal at h
      have h1 : '9'.toNat = 57 := rfl
      have h3 : 'f'.toNat = 102 := rfl
      have h5 : 'F'.toNat = 70 := rfl
      split at h
      · omega
      · split at h
        · omega
        · split at h
          · omega
          · simp at h
    have := key c.toNat hc d (by rw [Char.ofNat_toNat]; exact h)
    rw [Char.ofNat_toNat] at this
    exact this
  · rintro ⟨h16, h⟩
    have : ∀ e : Fin 16, hexVal (Nat.digitChar e) = some e.val ∧ hexVal ((Nat.digitChar e).toUpper) = some e.val := by
      decide +kernel
    rcases h with rfl | rfl
    · exact (this ⟨d, h16⟩).1
    · exact (this ⟨d, h16⟩).2

theorem shl_or (v d : Nat) (h : d < 16) : (v <<< 4) ||| d = 16 * v + d := by
  rw [← Nat.shiftLeft_add_eq_or_of_lt (by omega), Nat.shiftLeft_eq]; omega

theorem HexNum.lt {g v} (h : HexNum g v) : v < 16 ^ g.length := by
  induction h with
  | nil => simp
  | snoc _ hd ih =>
    have := hd.1
    simp only [List.length_append, List.length_cons, List.length_nil, Nat.pow_add] at ih ⊢
    omega

theorem putWord_eq (out : List Nat) (v : Nat) (h : v < 65536) : putWord out v = out ++ [v / 256, v % 256] := by
  have h1 : (v >>> 8) &&& 0xff = v / 256 := by
    rw [show (0xff:Nat) = 2^8 - 1 from rfl, Nat.and_two_pow_sub_one_eq_mod, Nat.shiftRight_eq_div_pow]; omega
  have h2 : v &&& 0xff = v % 256 := by
    rw [show (0xff:Nat) = 2^8 - 1 from rfl, Nat.and_two_pow_sub_one_eq_mod]
  simp [putWord, h1, h2]

theorem Group.lt {g v} (h : Group g v) : v < 65536 := by
  have h1 := h.1.lt
  have : 16 ^ g.length ≤ 16 ^ 4 := Nat.pow_le_pow_right (by omega) h.2.2
  omega

/-- what a remaining text may look like, given the bytes and "::" position so far -/
def Rem (out : List Nat) (cp : Option Nat) (t : List Char) (a : List Nat) : Prop :=
  match cp with
  | some c => ∃ tb, (t = [] ∧ tb = [] ∨ Tail t tb) ∧ (out ++ tb).length < 16 ∧
      a = (out ++ tb).take c ++ List.replicate (16 - (out ++ tb).length) 0 ++ (out ++ tb).drop c
  | none => (t = [] ∧ out.length = 16 ∧ a = out) ∨
      (∃ tb, Tail t tb ∧ (out ++ tb).length = 16 ∧ a = out ++ tb) ∨
      (∃ l lb r rb, (t = ':' :: r ∧ lb = [] ∨ Groups l lb ∧ t = l ++ ':' :: ':' :: r) ∧ (r = [] ∧ rb = [] ∨ Tail r rb) ∧
        (out ++ lb ++ rb).length < 16 ∧
        a = out ++ lb ++ List.replicate (16 - (out ++ lb ++ rb).length) 0 ++ rb)

theorem pton4_some {s a} (h : pton4 s = some a) : IsAddr 4 a ∧ s = dotted a := by
  have := (C64_ipv4_text s a).1.1 (by simp [pton, h])
  exact this

theorem pton6Loop_sound (s : List Char) : ∀ (out : List Nat) (cp : Option Nat) (ds : List Char) (val : Nat) (st' : P6) (a : List Nat),
    HexNum ds val → ds.length ≤ 4 → out.length ≤ 16 → (∀ c, cp = some c → c ≤ out.length) →
    pton6Loop ⟨out, cp, ds ++ s, ds.length, val⟩ s = some st' → pton6Finish st' = some a →
    Rem out cp (ds ++ s) a := by
  induction s with
  | nil =>
    intro out cp ds val st' a hn h4 h16 hcp h hf
    simp only [pton6Loop, Option.some.injEq] at h
    subst h
    have hlt : val < 65536 := by
      have h1 := hn.lt
      have : 16 ^ ds.length ≤ 16 ^ 4 := Nat.pow_le_pow_right (by omega) h4
      omega
    simp only [pton6Finish, putWord_eq _ _ hlt] at hf
    split at hf
    · simp at hf
    · rename_i hx
      by_cases hd : ds = []
      · subst hd
        simp at hf
        cases cp with
        | none =>
          simp at hf
          left; exact ⟨by simp, hf.1, hf.2.symm⟩
        | some c =>
          simp at hf
          refine ⟨[], Or.inl ⟨by simp, rfl⟩, by simp; omega, ?_⟩
          simp [hf.2.symm]
      · have hpos : 0 < ds.length := List.length_pos_iff.2 hd
        have hg : Group ds val := ⟨hn, hpos, h4⟩
        simp only [gt_iff_lt, hpos, if_true] at hf
        cases cp with
        | none =>
          simp only at hf
          split at hf
          · simp at hf
          · rename_i h16
            simp at hf
            right; left
            exact ⟨_, by simpa using Tail.one hg, by simpa using h16, hf.symm⟩
        | some c =>
          simp only at hf
          split at hf
          · simp at hf
          · rename_i h16
            refine ⟨_, Or.inr (by simpa using Tail.one hg), ?_, ?_⟩
            · simp at h16 hx ⊢; omega
            · simpa using hf.symm
  | cons c rest ih =>
    intro out cp ds val st' a hn h4 h16 hcp h hf
    simp only [pton6Loop] at h
    cases hv : hexVal c with
    | some d =>
      have hd := (hexVal_iff c d).1 hv
      simp only [hv] at h
      split at h
      · simp at h
      · split at h
        · simp at h
        · rename_i hx _
          rw [shl_or _ _ hd.1] at h
          have := ih out cp (ds ++ [c]) (16*val+d) st' a (hn.snoc hd) (by simp; omega) h16 hcp (by simpa using h) hf
          simpa using this
    | none =>
      simp only [hv] at h
      split at h
      · rename_i hc
        subst hc
        split at h
        · rename_i hx
          have : ds = [] := List.length_eq_zero_iff.1 hx
          subst this
          cases hn' : cp with
          | some _ => simp [hn'] at h
          | none =>
            simp only [hn'] at h
            have hval : val = 0 := by
              have := hn.lt; simp at this; omega
            subst hval
            have := ih out (some out.length) [] 0 st' a HexNum.nil (by simp) h16 (by simp) (by simpa using h) hf
            obtain ⟨tb, ht, hl, ha⟩ := this
            right; right
            refine ⟨[], [], rest, tb, Or.inl ⟨by simp, rfl⟩, by simpa using ht, by simpa using hl, ?_⟩
            rw [ha]; simp
        · rename_i hx
          split at h
          · simp at h
          · rename_i hr
            split at h
            · simp at h
            · rename_i ho
              have hpos : 1 ≤ ds.length := by omega
              have hg : Group ds val := ⟨hn, hpos, h4⟩
              rw [putWord_eq _ _ hg.lt] at h
              have := ih (out ++ [val/256, val%256]) cp [] 0 st' a HexNum.nil (by simp) (by simp; omega)
                (fun c hc => by have := hcp c hc; simp; omega) (by simpa using h) hf
              cases cp with
              | some c =>
                obtain ⟨tb, ht, hl, ha⟩ := this
                rcases ht with ⟨ht, _⟩ | ht
                · simp at ht; exact absurd ht hr
                · exact ⟨_, Or.inr (Tail.cons hg ht), by simpa using hl, by simpa using ha⟩
              | none =>
                rcases this with ⟨ht, _⟩ | ⟨tb, ht, hl, ha⟩ | ⟨l, lb, r, rb, hl, hr2, hlen, ha⟩
                · simp at ht; exact absurd ht hr
                · right; left
                  exact ⟨_, Tail.cons hg ht, by simpa using hl, by simpa using ha⟩
                · right; right
                  rcases hl with ⟨h1, rfl⟩ | ⟨h1, h2⟩
                  · simp at h1
                    subst h1
                    exact ⟨ds, _, r, rb, Or.inr ⟨Groups.one hg, rfl⟩, hr2, by simpa using hlen, by simpa using ha⟩
                  · simp at h2
                    subst h2
                    exact ⟨_, _, r, rb, Or.inr ⟨Groups.cons hg h1, by simp⟩, hr2, by simpa using hlen, by simpa using ha⟩
      · split at h
        · rename_i hc hdot
          split at h
          · rename_i b hb
            obtain ⟨hA, ht⟩ := pton4_some hb
            simp at h
            subst h
            simp [pton6Finish] at hf
            cases cp with
            | none =>
              simp at hf
              right; left
              exact ⟨b, ht ▸ Tail.quad hA, by simp; omega, hf.2.symm⟩
            | some c =>
              simp at hf
              refine ⟨b, Or.inr (ht ▸ Tail.quad hA), ?_, ?_⟩
              · have := hA.1; simp; omega
              · simpa using hf.2.symm
          · simp at h
        · simp at h

theorem hexVal_colon : hexVal ':' = none := by decide
theorem hexVal_dot : hexVal '.' = none := by decide

theorem pton6Loop_hex {g v} (h : HexNum g v) : ∀ (out : List Nat) (cp : Option Nat) (tok rest : List Char),
    g.length ≤ 4 →
    pton6Loop ⟨out, cp, tok, 0, 0⟩ (g ++ rest) = pton6Loop ⟨out, cp, tok, g.length, v⟩ rest := by
  induction h with
  | nil => intros; rfl
  | @snoc g v c d h hd ih =>
    intro out cp tok rest h4
    simp at h4
    rw [List.append_assoc, ih out cp tok _ (by omega)]
    have hlt := (h.snoc hd).lt
    have : 16 ^ (g ++ [c]).length ≤ 16 ^ 4 := Nat.pow_le_pow_right (by omega) (by simp; omega)
    simp only [List.cons_append, List.nil_append, pton6Loop, (hexVal_iff c d).2 hd, shl_or v d hd.1]
    rw [if_neg (by omega), if_neg (by omega)]
    simp

theorem Group.ne_nil {g v} (h : Group g v) : g ≠ [] := by
  intro h2; subst h2; have := h.2.1; simp at this

theorem pton6Loop_group {g v} (h : Group g v) (out : List Nat) (cp : Option Nat) (tok rest : List Char)
    (hr : rest ≠ []) (ho : out.length + 2 ≤ 16) :
    pton6Loop ⟨out, cp, tok, 0, 0⟩ (g ++ ':' :: rest) =
      pton6Loop ⟨out ++ [v / 256, v % 256], cp, rest, 0, 0⟩ rest := by
  rw [pton6Loop_hex h.1 out cp tok _ h.2.2]
  have := h.2.1
  simp only [pton6Loop, hexVal_colon]
  rw [if_pos trivial, if_neg (by omega), if_neg hr, if_neg (by omega), putWord_eq _ _ h.lt]

theorem pton6Loop_colons (out : List Nat) (tok rest : List Char) :
    pton6Loop ⟨out, none, tok, 0, 0⟩ (':' :: rest) = pton6Loop ⟨out, some out.length, rest, 0, 0⟩ rest := by
  simp [pton6Loop, hexVal_colon]

theorem Tail.ne_nil {s bs} (h : Tail s bs) : s ≠ [] := by
  cases h with
  | one h => exact h.ne_nil
  | quad h =>
    obtain ⟨x,y,z,w,rfl,_⟩ := isAddr4 h
    rw [dotted4]; simp [Inet.quad]
  | cons h _ => simp

theorem Groups.len {s bs} (h : Groups s bs) : 2 ≤ bs.length := by
  cases h <;> simp

theorem digits_hexnum (ds : List Nat) (h : ∀ d ∈ ds, d < 16) : ∃ v, HexNum (ds.map Nat.digitChar) v := by
  have : ∀ n, ∀ ds : List Nat, ds.length = n → (∀ d ∈ ds, d < 16) → ∃ v, HexNum (ds.map Nat.digitChar) v := by
    intro n
    induction n with
    | zero => intro ds hl _; rw [List.length_eq_zero_iff.1 hl]; exact ⟨_, HexNum.nil⟩
    | succ n ih =>
      intro ds hl hd
      have hne : ds ≠ [] := by intro h; subst h; simp at hl
      obtain ⟨v, hv⟩ := ih ds.dropLast (by simp [hl]) (fun d hm => hd d (List.dropLast_subset _ hm))
      have e := List.dropLast_concat_getLast hne
      refine ⟨16 * v + ds.getLast hne, ?_⟩
      have : HexNum (ds.dropLast.map Nat.digitChar ++ [Nat.digitChar (ds.getLast hne)]) (16 * v + ds.getLast hne) :=
        hv.snoc ⟨hd _ (List.getLast_mem hne), Or.inl rfl⟩
      have e2 : ds.map Nat.digitChar = ds.dropLast.map Nat.digitChar ++ [Nat.digitChar (ds.getLast hne)] := by
        conv => lhs; rw [← e]
        simp
      rw [e2]; exact this
  exact this _ ds rfl h

theorem dec_hexnum (n : Nat) (h : n < 256) : ∃ v, HexNum (Nat.toDigits 10 n) v := by
  by_cases h1 : n < 10
  · rw [Nat.toDigits_of_lt_base h1]
    exact digits_hexnum [n] (by simp; omega)
  · by_cases h2 : n < 100
    · rw [Nat.toDigits_of_base_le (by omega) (by omega), Nat.toDigits_of_lt_base (by omega)]
      exact digits_hexnum [n/10, n%10] (by simp; omega)
    · rw [Nat.toDigits_of_base_le (by omega) (by omega), Nat.toDigits_of_base_le (by omega) (by omega), Nat.toDigits_of_lt_base (by omega)]
      exact digits_hexnum [n/10/10, n/10%10, n%10] (by simp; omega)

theorem dec_len (n : Nat) (hn : n < 256) : (Nat.toDigits 10 n).length ≤ 3 :=
  (Nat.length_toDigits_le_iff (by omega) (by omega)).2 (by omega)

theorem pton4_dotted {a} (h : IsAddr 4 a) : pton4 (dotted a) = some a := by
  obtain ⟨x,y,z,w,rfl,hx,hy,hz,hw⟩ := isAddr4 h
  rw [dotted4, pton4_quad _ _ _ _ hx hy hz hw]

theorem pton6Loop_tail {s bs} (h : Tail s bs) : ∀ (out : List Nat) (cp : Option Nat),
    out.length + bs.length ≤ 16 →
    ∃ st', pton6Loop ⟨out, cp, s, 0, 0⟩ s = some st' ∧ st'.colonp = cp ∧
      (if st'.xd > 0 then putWord st'.out st'.val else st'.out) = out ++ bs ∧
      (st'.xd > 0 → st'.out.length + 2 ≤ 16) := by
  induction h with
  | @one g v h =>
    intro out cp hl
    have hx := pton6Loop_hex h.1 out cp g [] h.2.2
    have hpos := h.2.1
    rw [List.append_nil] at hx
    refine ⟨_, hx, rfl, ?_, ?_⟩
    · simp only
      rw [if_pos (by omega), putWord_eq _ _ h.lt]
    · intro _; simpa using hl
  | @quad a h =>
    intro out cp hl
    have h4 : a.length = 4 := h.1
    have hp := pton4_dotted h
    obtain ⟨x,y,z,w,rfl,hx,hy,hz,hw⟩ := isAddr4 h
    obtain ⟨v, hv⟩ := dec_hexnum x hx
    have hx := pton6Loop_hex hv out cp (dotted [x,y,z,w]) ('.' :: (Nat.toDigits 10 y ++ '.' :: (Nat.toDigits 10 z ++ '.' :: Nat.toDigits 10 w)))
      (by have := dec_len x hx; omega)
    refine ⟨⟨out ++ [x,y,z,w], cp, dotted [x,y,z,w], 0, v⟩, ?_, rfl, by simp, by simp⟩
    have e : dotted [x,y,z,w] = Nat.toDigits 10 x ++ '.' :: (Nat.toDigits 10 y ++ '.' :: (Nat.toDigits 10 z ++ '.' :: Nat.toDigits 10 w)) := by
      rw [dotted4]; simp [quad]
    rw [← e] at hx
    rw [hx]
    simp only [pton6Loop, hexVal_dot]
    rw [if_neg (by decide), if_pos (by simp at hl ⊢; omega), hp]
  | @cons g v s bs h ht ih =>
    intro out cp hl
    simp at hl
    rw [pton6Loop_group h out cp _ s ht.ne_nil (by omega)]
    obtain ⟨st', h1, h2, h3, h4⟩ := ih (out ++ [v / 256, v % 256]) cp (by simp; omega)
    exact ⟨st', h1, h2, by simpa using h3, h4⟩

theorem pton6Loop_groups {s bs} (h : Groups s bs) : ∀ (out : List Nat) (tok r : List Char),
    out.length + bs.length ≤ 16 →
    pton6Loop ⟨out, none, tok, 0, 0⟩ (s ++ ':' :: ':' :: r) =
      pton6Loop ⟨out ++ bs, some (out ++ bs).length, r, 0, 0⟩ r := by
  induction h with
  | @one g v h =>
    intro out tok r hl
    simp at hl
    rw [pton6Loop_group h out none _ _ (by simp) (by omega), pton6Loop_colons]
  | @cons g v s bs h ht ih =>
    intro out tok r hl
    simp at hl
    rw [List.append_assoc, List.cons_append, pton6Loop_group h out none _ _ (by simp) (by omega), ih _ _ _ (by simp; omega)]
    simp

theorem group_head {g v} (h : Group g v) : ∃ c r, g = c :: r ∧ c ≠ ':' := by
  obtain ⟨hn, h1, h2⟩ := h
  have : ∀ {g v}, HexNum g v → ∀ c ∈ g, c ≠ ':' := by
    intro g v hn
    induction hn with
    | nil => simp
    | snoc _ hd ih =>
      intro x hx
      simp at hx
      rcases hx with hx | hx
      · exact ih x hx
      · subst hx
        intro hc; subst hc
        have := (hexVal_iff ':' _).2 hd
        simp [hexVal_colon] at this
  cases g with
  | nil => simp at h1
  | cons c r => exact ⟨c, r, rfl, this hn c (by simp)⟩

theorem groups_head {g v} (h : Groups g v) : ∃ c r, g = c :: r ∧ c ≠ ':' := by
  cases h with
  | one h => exact group_head h
  | cons h _ => obtain ⟨c, r, rfl, hc⟩ := group_head h; exact ⟨c, _, rfl, hc⟩

theorem tail_head {g v} (h : Tail g v) : ∃ c r, g = c :: r ∧ c ≠ ':' := by
  cases h with
  | one h => exact group_head h
  | cons h _ => obtain ⟨c, r, rfl, hc⟩ := group_head h; exact ⟨c, _, rfl, hc⟩
  | quad h =>
    obtain ⟨x,y,z,w,rfl,hx,_⟩ := isAddr4 h
    obtain ⟨v, hv⟩ := dec_hexnum x hx
    have hg : Group (Nat.toDigits 10 x) v := ⟨hv, Nat.length_toDigits_pos, by have := dec_len x hx; omega⟩
    obtain ⟨c, r, e, hc⟩ := group_head hg
    rw [dotted4]
    refine ⟨c, r ++ '.' :: (Nat.toDigits 10 y ++ '.' :: (Nat.toDigits 10 z ++ '.' :: Nat.toDigits 10 w)), ?_, hc⟩
    simp [Inet.quad, e]

theorem pton6_start {c : Char} {r : List Char} (h : c ≠ ':') :
    pton6 (c :: r) = (pton6Loop ⟨[], none, c :: r, 0, 0⟩ (c :: r)).bind pton6Finish := by
  unfold pton6
  simp only
  split <;> simp_all

theorem finish_of {st' : P6} {cp : Option Nat} {bs : List Nat} (h2 : st'.colonp = cp)
    (h3 : (if st'.xd > 0 then putWord st'.out st'.val else st'.out) = bs)
    (h4 : st'.xd > 0 → st'.out.length + 2 ≤ 16) :
    pton6Finish st' = match (generalizing := false) cp with
      | some c => if bs.length = 16 then none else some (bs.take c ++ List.replicate (16 - bs.length) 0 ++ bs.drop c)
      | none => if bs.length ≠ 16 then none else some bs := by
  subst h3
  unfold pton6Finish
  rw [if_neg (by intro h; have := h4 h.1; omega), h2]
  cases cp <;> rfl

theorem after_colons {out : List Nat} {r : List Char} {rb : List Nat} (hr : r = [] ∧ rb = [] ∨ Tail r rb)
    (k : Nat) (hk : 0 < k) (hl : out.length + k + rb.length = 16) :
    (pton6Loop ⟨out, some out.length, r, 0, 0⟩ r).bind pton6Finish =
      some (out ++ List.replicate k 0 ++ rb) := by
  rcases hr with ⟨rfl, rfl⟩ | hr
  · simp at hl
    simp [pton6Loop, pton6Finish]
    refine ⟨by omega, ?_⟩
    congr 1; omega
  · obtain ⟨st', h1, h2, h3, h4⟩ := pton6Loop_tail hr out (some out.length) (by omega)
    rw [h1, Option.bind_some, finish_of h2 h3 h4]
    simp
    refine ⟨by omega, ?_⟩
    congr 1; omega

/-- The IPv6 parser accepts exactly the textual forms of RFC 4291, with the meaning given there. -/
theorem C65_parser_grammar (s : List Char) (a : List Nat) : pton .inet6 s = .one a ↔ V6Text s a := by
  have key : pton .inet6 s = .one a ↔ pton6 s = some a := by
    simp only [pton]; cases pton6 s <;> simp
  rw [key]
  constructor
  · intro h
    have sound : ∀ t, (pton6Loop ⟨[], none, t, 0, 0⟩ t).bind pton6Finish = some a → Rem [] none t a := by
      intro t ht
      cases hl : pton6Loop ⟨[], none, t, 0, 0⟩ t with
      | none => simp [hl] at ht
      | some st' =>
        simp [hl] at ht
        have := pton6Loop_sound t [] none [] 0 st' a HexNum.nil (by simp) (by simp) (by simp) hl ht
        simpa using this
    unfold pton6 at h
    simp only at h
    split at h
    · simp at h
    · rename_i r
      rcases sound _ h with ⟨h1, _⟩ | ⟨tb, h1, _⟩ | ⟨l, lb, r', rb, h1, h2, h3, h4⟩
      · simp at h1
      · obtain ⟨c, r', e, hc⟩ := tail_head h1
        simp at e; exact absurd e.1.symm hc
      · rcases h1 with ⟨h1, rfl⟩ | ⟨h1, e1⟩
        · simp at h1 h3 h4; subst h1
          have := V6Text.compressed (l := []) (lb := []) (16 - rb.length) (Or.inl ⟨rfl, rfl⟩) h2 (by omega) (by simp; omega)
          simpa [h4] using this
        · obtain ⟨c, r', e, hc⟩ := groups_head h1
          simp [e] at e1; exact absurd e1.1.symm hc
    · simp at h
    · rename_i hne hnc
      have hnc' : ∀ r, s ≠ ':' :: r := by
        intro r hr; exact hnc r hr
      rcases sound _ h with ⟨h1, h2, _⟩ | ⟨tb, h1, h2, h3⟩ | ⟨l, lb, r', rb, h1, h2, h3, h4⟩
      · simp at h2
      · simp at h2 h3; subst h3
        exact V6Text.full h1 h2
      · rcases h1 with ⟨h1, rfl⟩ | ⟨h1, e1⟩
        · exact absurd h1 (hnc' _)
        · simp at h3 h4
          have := V6Text.compressed (16 - (lb.length + rb.length)) (Or.inr h1) h2 (by omega) (by omega)
          rw [e1, h4]; simpa using this
  · intro h
    cases h with
    | full ht hl =>
      obtain ⟨c, r, e, hc⟩ := tail_head ht
      obtain ⟨st', h1, h2, h3, h4⟩ := pton6Loop_tail ht [] none (by simp; omega)
      subst e
      rw [pton6_start hc, h1, Option.bind_some, finish_of h2 h3 h4]
      simp [hl]
    | @compressed l lb r rb k hlft hr hk hl =>
      rcases hlft with ⟨rfl, rfl⟩ | hg
      · have := after_colons (out := []) hr k hk hl
        simp only [List.nil_append, pton6]
        rw [pton6Loop_colons]
        simpa using this
      · obtain ⟨c, r', e, hc⟩ := groups_head hg
        have hx := pton6Loop_groups hg [] (l ++ ':' :: ':' :: r) r (by simp; omega)
        have hs : pton6 (l ++ ':' :: ':' :: r) = (pton6Loop ⟨[], none, l ++ ':' :: ':' :: r, 0, 0⟩ (l ++ ':' :: ':' :: r)).bind pton6Finish := by
          rw [e]; exact pton6_start hc
        rw [hs, hx]
        simpa using after_colons (out := lb) hr k hk hl

/-! ### Printing -/

def hexGroup (w : Nat) : List Char := Nat.toDigits 16 w

theorem hexnum_toDigits (w : Nat) : HexNum (Nat.toDigits 16 w) w := by
  induction w using Nat.strongRecOn with
  | _ w ih =>
    by_cases h : w < 16
    · rw [Nat.toDigits_of_lt_base h]
      have := HexNum.nil.snoc (c := Nat.digitChar w) (d := w) ⟨h, Or.inl rfl⟩
      simpa using this
    · rw [Nat.toDigits_of_base_le (by omega) (by omega)]
      have := (ih (w/16) (by omega)).snoc (c := Nat.digitChar (w%16)) (d := w%16) ⟨by omega, Or.inl rfl⟩
      rwa [show 16 * (w/16) + w % 16 = w by omega] at this

theorem group_hex (w : Nat) (h : w < 65536) : Group (hexGroup w) w :=
  ⟨hexnum_toDigits w, Nat.length_toDigits_pos, (Nat.length_toDigits_le_iff (by omega) (by omega)).2 (by omega)⟩

/-- groups in lower-case hexadecimal joined by colons -/
def joinHex (ws : List Nat) : List Char := List.intercalate [':'] (ws.map (Nat.toDigits 16))

/-- big-endian bytes of the groups -/
def bytesOf (ws : List Nat) : List Nat := ws.flatMap fun w => [w / 256, w % 256]

theorem joinHex_cons (w x : Nat) (ws : List Nat) : joinHex (w :: x :: ws) = hexGroup w ++ ':' :: joinHex (x :: ws) := by
  simp [joinHex, List.intercalate, hexGroup]

theorem joinHex_one (w : Nat) : joinHex [w] = hexGroup w := by simp [joinHex, List.intercalate, hexGroup]

theorem groups_join (ws : List Nat) (hne : ws ≠ []) (h : ∀ w ∈ ws, w < 65536) : Groups (joinHex ws) (bytesOf ws) := by
  induction ws with
  | nil => simp at hne
  | cons w ws ih =>
    cases ws with
    | nil => rw [joinHex_one]; exact Groups.one (group_hex w (h w (by simp)))
    | cons x ws =>
      rw [joinHex_cons]
      exact Groups.cons (group_hex w (h w (by simp))) (ih (by simp) (fun y hy => h y (by simp at hy ⊢; right; exact hy)))

theorem tail_join (ws : List Nat) (hne : ws ≠ []) (h : ∀ w ∈ ws, w < 65536) : Tail (joinHex ws) (bytesOf ws) := by
  induction ws with
  | nil => simp at hne
  | cons w ws ih =>
    cases ws with
    | nil => rw [joinHex_one]; exact Tail.one (group_hex w (h w (by simp)))
    | cons x ws =>
      rw [joinHex_cons]
      exact Tail.cons (group_hex w (h w (by simp))) (ih (by simp) (fun y hy => h y (by simp at hy ⊢; right; exact hy)))

theorem out_none (src : List Nat) (w5' w0 w1 w2 w3 w4 w5 w6 w7 : Nat) :
    outLoop none src w5' [] 0 [w0,w1,w2,w3,w4,w5,w6,w7] = some (joinHex [w0,w1,w2,w3,w4,w5,w6,w7]) := by
  simp [outLoop, inside, embedded, joinHex, List.intercalate]

theorem out_some (src : List Nat) (w0 w1 w2 w3 w4 w5 w6 w7 b l : Nat) (h1 : 2 ≤ l) (h2 : b + l ≤ 8)
    (hne : ¬ (b = 0 ∧ (l = 6 ∨ l = 5 ∧ w5 = 0xffff))) :
    (outLoop (some (b, l)) src w5 [] 0 [w0,w1,w2,w3,w4,w5,w6,w7]).map (· ++ trailing (some (b, l))) =
      some (joinHex ([w0,w1,w2,w3,w4,w5,w6,w7].take b) ++ ':' :: ':' :: joinHex ([w0,w1,w2,w3,w4,w5,w6,w7].drop (b + l))) := by
  have hb : b = 0 ∨ b = 1 ∨ b = 2 ∨ b = 3 ∨ b = 4 ∨ b = 5 ∨ b = 6 := by omega
  have hl : l = 2 ∨ l = 3 ∨ l = 4 ∨ l = 5 ∨ l = 6 ∨ l = 7 ∨ l = 8 := by omega
  rcases hb with rfl | rfl | rfl | rfl | rfl | rfl | rfl <;>
  rcases hl with rfl | rfl | rfl | rfl | rfl | rfl | rfl <;>
  first
  | omega
  | (simp at hne
     simp [outLoop, inside, isBase, embedded, trailing, joinHex, List.intercalate, hne])
  | simp [outLoop, inside, isBase, embedded, trailing, joinHex, List.intercalate]

/-! ### The zero run that is compressed -/

/-- words `b`, ..., `b+l-1` exist and are all zero -/
def ZeroRun (ws : List Nat) (b l : Nat) : Prop := b + l ≤ ws.length ∧ ∀ j, b ≤ j → j < b + l → ws.getD j 1 = 0

def RunF (f : Nat → Prop) (b l : Nat) : Prop := ∀ j, b ≤ j → j < b + l → f j

def Covers (f : Nat → Prop) (best : Run) (N : Nat) : Prop :=
  ∀ b' l', 1 ≤ l' → RunF f b' l' → b' + l' ≤ N → ∃ bb bl, best = some (bb, bl) ∧ (l' < bl ∨ l' = bl ∧ bb ≤ b')

def Valid (f : Nat → Prop) (best : Run) (N : Nat) : Prop :=
  ∀ bb bl, best = some (bb, bl) → RunF f bb bl ∧ 1 ≤ bl ∧ bb + bl ≤ N

def RunInv (f : Nat → Prop) (best cur : Run) (i : Nat) : Prop :=
  match cur with
  | none => Covers f best i ∧ Valid f best i ∧ (i = 0 ∨ ¬ f (i - 1))
  | some (cb, cl) => cb + cl = i ∧ 1 ≤ cl ∧ RunF f cb cl ∧ (cb = 0 ∨ ¬ f (cb - 1)) ∧ Covers f best cb ∧ Valid f best cb

theorem better_inv (f : Nat → Prop) (best cur : Run) (i : Nat) (h : RunInv f best cur i) :
    Covers f (better best cur) i ∧ Valid f (better best cur) i := by
  cases cur with
  | none => exact ⟨h.1, h.2.1⟩
  | some c =>
    obtain ⟨cb, cl⟩ := c
    obtain ⟨h1, h2, h3, h4, h5, h6⟩ := h
    constructor
    · intro b' l' hl' hr hn
      by_cases hb : cb ≤ b'
      · cases hbest : best with
        | none => exact ⟨cb, cl, by simp [better], by omega⟩
        | some p =>
          obtain ⟨bb, bl⟩ := p
          simp only [better]
          have hv := h6 bb bl hbest
          split
          · exact ⟨cb, cl, rfl, by omega⟩
          · exact ⟨bb, bl, rfl, by omega⟩
      · have hle : b' + l' ≤ cb := by
          rcases h4 with h4 | h4
          · omega
          · by_cases hc : b' + l' ≤ cb
            · exact hc
            · exact absurd (hr (cb - 1) (by omega) (by omega)) h4
        obtain ⟨bb, bl, e, h⟩ := h5 b' l' hl' hr hle
        subst e
        simp only [better]
        split
        · exact ⟨cb, cl, rfl, by omega⟩
        · exact ⟨bb, bl, rfl, h⟩
    · intro bb bl e
      cases hbest : best with
      | none =>
        simp [hbest, better] at e
        obtain ⟨rfl, rfl⟩ := e
        exact ⟨h3, h2, by omega⟩
      | some p =>
        obtain ⟨b0, l0⟩ := p
        have hv := h6 b0 l0 hbest
        simp only [hbest, better] at e
        split at e
        · simp at e; obtain ⟨rfl, rfl⟩ := e; exact ⟨h3, h2, by omega⟩
        · simp at e; obtain ⟨rfl, rfl⟩ := e; exact ⟨hv.1, hv.2.1, by omega⟩

theorem runLoop_inv (f : Nat → Prop) (ws : List Nat) : ∀ (best cur : Run) (i : Nat),
    (∀ j (hj : j < ws.length), f (i + j) ↔ ws[j] = 0) → RunInv f best cur i →
    Covers f (runLoop best cur i ws) (i + ws.length) ∧ Valid f (runLoop best cur i ws) (i + ws.length) := by
  induction ws with
  | nil => intro best cur i _ h; exact better_inv f best cur i h
  | cons w ws ih =>
    intro best cur i hf h
    have hf0 := hf 0 (by simp)
    simp at hf0
    have hf' : ∀ j (hj : j < ws.length), f (i + 1 + j) ↔ ws[j] = 0 := by
      intro j hj
      have := hf (j + 1) (by simp; omega)
      simp at this
      rw [← this, show i + 1 + j = i + (j + 1) by omega]
    have e : i + (w :: ws).length = i + 1 + ws.length := by simp; omega
    rw [e]
    simp only [runLoop]
    split
    · rename_i hw
      have hfi := hf0.2 hw
      cases cur with
      | none =>
        refine ih _ _ _ hf' ⟨rfl, by omega, ?_, h.2.2, h.1, h.2.1⟩
        intro j h1 h2
        have : j = i := by omega
        rw [this]; exact hfi
      | some c =>
        obtain ⟨cb, cl⟩ := c
        obtain ⟨h1, h2, h3, h4, h5, h6⟩ := h
        refine ih _ _ _ hf' ⟨by omega, by omega, ?_, h4, h5, h6⟩
        intro j hj1 hj2
        by_cases hj : j = i
        · rw [hj]; exact hfi
        · exact h3 j hj1 (by omega)
    · rename_i hw
      have hfi : ¬ f i := fun h => hw (hf0.1 h)
      have hb := better_inv f best cur i h
      refine ih _ _ _ hf' ⟨?_, ?_, Or.inr (by simpa using hfi)⟩
      · intro b' l' h1 h2 h3
        have : b' + l' ≤ i := by
          by_cases hc : b' + l' ≤ i
          · exact hc
          · exact absurd (h2 i (by omega) (by omega)) hfi
        exact hb.1 b' l' h1 h2 this
      · intro bb bl e
        have := hb.2 bb bl e
        exact ⟨this.1, this.2.1, by omega⟩

theorem bestRun_spec (ws : List Nat) :
    match bestRun ws with
    | some (b, l) => 2 ≤ l ∧ ZeroRun ws b l ∧ ∀ b' l', ZeroRun ws b' l' → l' ≤ l ∧ (l' = l → b ≤ b')
    | none => ∀ b' l', ZeroRun ws b' l' → l' < 2 := by
  have hinv := runLoop_inv (fun j => ws.getD j 1 = 0) ws none none 0
    (by intro j hj; simp [List.getD_eq_getElem?_getD, hj])
    ⟨by intro b' l' h1 _ h2; omega, by intro _ _ h; simp at h, Or.inl rfl⟩
  obtain ⟨hc, hv⟩ := hinv
  simp only [Nat.zero_add] at hc hv
  unfold bestRun
  cases hr : runLoop none none 0 ws with
  | none =>
    simp only
    intro b' l' hz
    by_cases h : l' < 2
    · exact h
    · obtain ⟨_, _, e, _⟩ := hc b' l' (by omega) hz.2 hz.1
      rw [hr] at e; simp at e
  | some p =>
    obtain ⟨b, l⟩ := p
    have hvv := hv b l hr
    simp only
    by_cases hl : l < 2
    · simp only [hl, if_true]
      intro b' l' hz
      by_cases h : l' < 2
      · exact h
      · obtain ⟨_, _, e, h2⟩ := hc b' l' (by omega) hz.2 hz.1
        rw [hr] at e; simp at e
        omega
    · simp only [hl, if_false]
      refine ⟨by omega, ⟨hvv.2.2, hvv.1⟩, ?_⟩
      intro b' l' hz
      by_cases h : l' = 0
      · omega
      · obtain ⟨_, _, e, h2⟩ := hc b' l' (by omega) hz.2 hz.1
        rw [hr] at e; simp at e
        omega

/-- The text of an IPv6 address with the eight groups `ws` (RFC 5952): the first of the longest runs
    of at least two zero groups is written "::"; IPv4-compatible and IPv4-mapped addresses end in a
    dotted quad. -/
inductive Canonical (ws : List Nat) : List Char → Prop
  | plain : (∀ b l, ZeroRun ws b l → l < 2) → Canonical ws (joinHex ws)
  | run {b l} : 2 ≤ l → ZeroRun ws b l → (∀ b' l', ZeroRun ws b' l' → l' ≤ l ∧ (l' = l → b ≤ b')) →
      ¬ (b = 0 ∧ (l = 6 ∨ l = 5 ∧ ws.getD 5 0 = 0xffff)) →
      Canonical ws (joinHex (ws.take b) ++ ':' :: ':' :: joinHex (ws.drop (b + l)))
  | compat : ZeroRun ws 0 6 → ws.getD 6 0 ≠ 0 →
      Canonical ws (':' :: ':' :: dotted (bytesOf (ws.drop 6)))
  | mapped : ZeroRun ws 0 5 → ws.getD 5 0 = 0xffff →
      Canonical ws (':' :: ':' :: 'f' :: 'f' :: 'f' :: 'f' :: ':' :: dotted (bytesOf (ws.drop 6)))

theorem word_eq (x y : Nat) (hy : y < 256) : (x <<< 8) ||| y = 256 * x + y := by
  rw [← Nat.shiftLeft_add_eq_or_of_lt (by omega), Nat.shiftLeft_eq]; omega

theorem isAddr16 {a : List Nat} (h : IsAddr 16 a) : ∃ w0 w1 w2 w3 w4 w5 w6 w7 : Nat,
    (∀ w ∈ [w0,w1,w2,w3,w4,w5,w6,w7], w < 65536) ∧ words a = [w0,w1,w2,w3,w4,w5,w6,w7] ∧
    a = bytesOf [w0,w1,w2,w3,w4,w5,w6,w7] := by
  obtain ⟨hl, hb⟩ := h
  match a, hl with
  | [a0,a1,a2,a3,a4,a5,a6,a7,a8,a9,a10,a11,a12,a13,a14,a15], _ =>
    simp only [List.mem_cons, List.not_mem_nil, or_false, forall_eq_or_imp, forall_eq] at hb
    obtain ⟨h0,h1,h2,h3,h4,h5,h6,h7,h8,h9,h10,h11,h12,h13,h14,h15⟩ := hb
    refine ⟨256*a0+a1, 256*a2+a3, 256*a4+a5, 256*a6+a7, 256*a8+a9, 256*a10+a11, 256*a12+a13, 256*a14+a15, ?_, ?_, ?_⟩
    · simp only [List.mem_cons, List.not_mem_nil, or_false, forall_eq_or_imp, forall_eq]
      refine ⟨?_,?_,?_,?_,?_,?_,?_,?_⟩ <;> omega
    · have : List.range 8 = [0,1,2,3,4,5,6,7] := by decide
      simp [words, this, word_eq, h1, h3, h5, h7, h9, h11, h13, h15]
    · simp only [bytesOf, List.flatMap_cons, List.flatMap_nil, List.cons_append, List.nil_append, List.cons.injEq, and_true]
      refine ⟨?_,?_,?_,?_,?_,?_,?_,?_,?_,?_,?_,?_,?_,?_,?_,?_⟩ <;> omega

theorem len_hex (w : Nat) (h : w < 65536) : (Nat.toDigits 16 w).length ≤ 4 :=
  (Nat.length_toDigits_le_iff (by omega) (by omega)).2 (by omega)

theorem joinHex_len (ws : List Nat) (h : ∀ w ∈ ws, w < 65536) : (joinHex ws).length ≤ 5 * ws.length - 1 := by
  induction ws with
  | nil => simp [joinHex, List.intercalate]
  | cons w ws ih =>
    have hw := len_hex w (h w (by simp))
    cases ws with
    | nil => rw [joinHex_one]; simp [hexGroup]; omega
    | cons x ws =>
      rw [joinHex_cons]
      have := ih (fun y hy => h y (by simp at hy ⊢; right; exact hy))
      simp [hexGroup] at this ⊢
      omega

theorem quad_len (a b c d : Nat) (ha : a < 256) (hb : b < 256) (hc : c < 256) (hd : d < 256) :
    (quad [a,b,c,d]).length ≤ 15 := by
  have h1 := dec_len a ha; have h2 := dec_len b hb; have h3 := dec_len c hc; have h4 := dec_len d hd
  simp [quad]; omega

/-- What the printer puts into its temporary for a 16-byte address. -/
theorem ntop6_text (a : List Nat) (h : IsAddr 16 a) : ∃ t, Canonical (words a) t ∧ t.length ≤ 45 ∧
    (outLoop (bestRun (words a)) a ((words a).getD 5 0) [] 0 (words a)).map (· ++ trailing (bestRun (words a))) = some t := by
  obtain ⟨w0,w1,w2,w3,w4,w5,w6,w7,hw,hws,ha⟩ := isAddr16 h
  rw [hws]
  have hspec := bestRun_spec [w0,w1,w2,w3,w4,w5,w6,w7]
  cases hr : bestRun [w0,w1,w2,w3,w4,w5,w6,w7] with
  | none =>
    rw [hr] at hspec
    refine ⟨_, Canonical.plain hspec, ?_, ?_⟩
    · have := joinHex_len _ hw; simp at this; omega
    · rw [out_none]; simp [trailing]
  | some p =>
    obtain ⟨b, l⟩ := p
    rw [hr] at hspec
    obtain ⟨h2, hz, hmax⟩ := hspec
    have hbl : b + l ≤ 8 := by simpa using hz.1
    by_cases hne : b = 0 ∧ (l = 6 ∨ l = 5 ∧ w5 = 0xffff)
    · obtain ⟨rfl, hl⟩ := hne
      have hd : a.drop 12 = bytesOf [w6, w7] := by rw [ha]; simp [bytesOf]
      have hq : quad (bytesOf [w6,w7]) = dotted (bytesOf [w6,w7]) := by
        simp only [bytesOf, List.flatMap_cons, List.flatMap_nil, List.cons_append, List.nil_append]
        rw [dotted4]
      have hw6 : w6 < 65536 := hw w6 (by simp)
      have hw7 : w7 < 65536 := hw w7 (by simp)
      have hlen : (quad (bytesOf [w6,w7])).length ≤ 15 := by
        simp only [bytesOf, List.flatMap_cons, List.flatMap_nil, List.cons_append, List.nil_append]
        exact quad_len _ _ _ _ (by omega) (by omega) (by omega) (by omega)
      rcases hl with rfl | ⟨rfl, rfl⟩
      · have h6 : w6 ≠ 0 := by
          intro h6; subst h6
          have hz7 : ZeroRun [w0,w1,w2,w3,w4,w5,0,w7] 0 7 := by
            refine ⟨by simp, ?_⟩
            intro j hj1 hj2
            by_cases hj : j < 6
            · exact hz.2 j hj1 (by omega)
            · have : j = 6 := by omega
              subst this; rfl
          have := (hmax 0 7 hz7).1
          omega
        refine ⟨_, Canonical.compat hz (by simpa using h6), ?_, ?_⟩
        · show List.length (':' :: ':' :: dotted (bytesOf [w6,w7])) ≤ 45
          rw [← hq]; simp; omega
        · rw [hq] at hlen
          simp [outLoop, inside, isBase, embedded, trailing, hd, ntop4, TMP6, hq]
          rw [if_neg (by omega)]
      · refine ⟨_, Canonical.mapped hz (by simp), ?_, ?_⟩
        · show List.length (':' :: ':' :: 'f' :: 'f' :: 'f' :: 'f' :: ':' :: dotted (bytesOf [w6,w7])) ≤ 45
          rw [← hq]; simp; omega
        · have hf : Nat.toDigits 16 65535 = ['f','f','f','f'] := by decide
          rw [hq] at hlen
          simp [outLoop, inside, isBase, embedded, trailing, hd, ntop4, TMP6, hq, hf]
          rw [if_neg (by omega)]
    · have := out_some a w0 w1 w2 w3 w4 w5 w6 w7 b l h2 hbl hne
      refine ⟨_, Canonical.run h2 hz hmax (by simpa using hne), ?_, by simpa using this⟩
      have l1 := joinHex_len ([w0,w1,w2,w3,w4,w5,w6,w7].take b) (fun w hm => hw w (List.mem_of_mem_take hm))
      have l2 := joinHex_len ([w0,w1,w2,w3,w4,w5,w6,w7].drop (b+l)) (fun w hm => hw w (List.mem_of_mem_drop hm))
      simp at l1 l2 ⊢
      omega

theorem zero_bytes (ws : List Nat) (h : ∀ w ∈ ws, w = 0) : bytesOf ws = List.replicate (2 * ws.length) 0 := by
  induction ws with
  | nil => rfl
  | cons w ws ih =>
    have hw : w = 0 := h w (by simp)
    subst hw
    have := ih (fun x hx => h x (by simp [hx]))
    rw [show 2 * ((0:Nat) :: ws).length = 2 * ws.length + 1 + 1 by simp; omega, List.replicate_succ, List.replicate_succ, ← this]
    simp [bytesOf]

theorem bytesOf_append (x y : List Nat) : bytesOf (x ++ y) = bytesOf x ++ bytesOf y := by simp [bytesOf]
theorem bytesOf_length (x : List Nat) : (bytesOf x).length = 2 * x.length := by
  induction x with
  | nil => rfl
  | cons w ws ih => simp [bytesOf] at ih ⊢; omega

theorem bytesOf_split (ws : List Nat) (b l : Nat) (h : ZeroRun ws b l) :
    bytesOf ws = bytesOf (ws.take b) ++ List.replicate (2 * l) 0 ++ bytesOf (ws.drop (b + l)) := by
  have e : ws = ws.take b ++ (ws.drop b).take l ++ ws.drop (b + l) := by
    rw [← List.drop_drop, List.append_assoc, List.take_append_drop, List.take_append_drop]
  have hl : ((ws.drop b).take l).length = l := by
    have := h.1; simp; omega
  have hz : bytesOf ((ws.drop b).take l) = List.replicate (2 * l) 0 := by
    rw [zero_bytes, hl]
    intro w hw
    obtain ⟨j, hj, rfl⟩ := List.mem_iff_getElem.1 hw
    have := h.2 (b + j) (by omega) (by omega)
    have hlt : b + j < ws.length := by have := h.1; omega
    simp [List.getD_eq_getElem?_getD, hlt] at this
    simpa using this
  conv => lhs; rw [e]
  rw [bytesOf_append, bytesOf_append, hz]

theorem canonical_v6 (ws : List Nat) (hlen : ws.length = 8) (hw : ∀ w ∈ ws, w < 65536) (t : List Char) (h : Canonical ws t) :
    V6Text t (bytesOf ws) := by
  have hd6 : IsAddr 4 (bytesOf (ws.drop 6)) := by
    refine ⟨by rw [bytesOf_length]; simp [hlen], ?_⟩
    intro b hb
    simp only [bytesOf, List.mem_flatMap] at hb
    obtain ⟨w, hm, hb⟩ := hb
    have := hw w (List.mem_of_mem_drop hm)
    simp at hb
    omega
  cases h with
  | plain h =>
    refine V6Text.full (tail_join ws (by intro h; simp [h] at hlen) hw) ?_
    rw [bytesOf_length]; omega
  | @run b l h2 hz hmax hne =>
    rw [bytesOf_split ws b l hz]
    have hbl := hz.1
    refine V6Text.compressed (2 * l) ?_ ?_ (by omega) ?_
    · by_cases hb : b = 0
      · left; subst hb; simp [joinHex, bytesOf, List.intercalate]
      · right; exact groups_join _ (by simp; exact ⟨hb, fun h => by simp [h] at hlen⟩) (fun w hm => hw w (List.mem_of_mem_take hm))
    · by_cases hb : b + l = ws.length
      · left; rw [hb]; simp [joinHex, bytesOf, List.intercalate]
      · right; exact tail_join _ (by simp; omega) (fun w hm => hw w (List.mem_of_mem_drop hm))
    · rw [bytesOf_length, bytesOf_length]; simp; omega
  | compat hz _ =>
    rw [bytesOf_split ws 0 6 hz]
    have := V6Text.compressed (l := []) (lb := []) 12 (Or.inl ⟨rfl, rfl⟩) (Or.inr (Tail.quad hd6)) (by omega) (by rw [hd6.1]; simp)
    simpa [bytesOf] using this
  | mapped hz h5 =>
    rw [bytesOf_split ws 0 5 hz]
    have hg : Group ['f','f','f','f'] 0xffff := by
      have := group_hex 0xffff (by omega)
      have e : hexGroup 0xffff = ['f','f','f','f'] := by decide
      rwa [e] at this
    have hsplit : bytesOf (ws.drop 5) = 0xffff / 256 :: 0xffff % 256 :: bytesOf (ws.drop 6) := by
      have hlt : 5 < ws.length := by omega
      rw [List.drop_eq_getElem_cons hlt]
      have : ws[5] = 0xffff := by simpa [List.getD_eq_getElem?_getD, hlt] using h5
      rw [this]; simp [bytesOf]
    have := V6Text.compressed (l := []) (lb := []) 10 (Or.inl ⟨rfl, rfl⟩) (Or.inr (Tail.cons hg (Tail.quad hd6))) (by omega)
      (by simp [hd6.1])
    rw [hsplit] at *
    simpa [bytesOf, hsplit] using this

theorem ntop6_cases (a : List Nat) (h : IsAddr 16 a) : ∃ t, Canonical (words a) t ∧ t.length ≤ 45 ∧
    ∀ size : Int, ntop .inet6 a size = if (t.length + 1 : Int) > size then .error ENOSPC else .ok t := by
  obtain ⟨t, h1, h2, h3⟩ := ntop6_text a h
  refine ⟨t, h1, h2, ?_⟩
  intro size
  simp only [ntop, ntop6]
  cases ho : outLoop (bestRun (words a)) a ((words a).getD 5 0) [] 0 (words a) with
  | none => rw [ho] at h3; simp at h3
  | some u =>
    rw [ho, Option.map_some, Option.some.injEq] at h3
    simp only [h3]
    by_cases hs : (t.length + 1 : Int) > size
    · simp only [if_pos hs]
    · simp only [if_neg hs]

/-- C65. For every 16-byte address and a buffer with room for its text, conversion to text succeeds and
    parsing the result yields the address again. (`AOSL_INET6_ADDRSTRLEN`-sized buffers always have room:
    46 bytes suffice for every address.) -/
theorem C65_ipv6_round_trip (a : List Nat) (h : IsAddr 16 a) :
    (∀ size : Int, 46 ≤ size → ∃ t, ntop .inet6 a size = .ok t ∧ pton .inet6 t = .one a) ∧
    (∀ (size : Int) (t : List Char), ntop .inet6 a size = .ok t → pton .inet6 t = .one a) := by
  obtain ⟨t, hc, hl, hn⟩ := ntop6_cases a h
  obtain ⟨w0,w1,w2,w3,w4,w5,w6,w7,hw,hws,ha⟩ := isAddr16 h
  have hp : pton .inet6 t = .one a := by
    rw [C65_parser_grammar]
    rw [hws] at hc
    have := canonical_v6 _ (by simp) hw t hc
    rwa [← ha] at this
  constructor
  · intro size hs
    exact ⟨t, by rw [hn, if_neg (by omega)], hp⟩
  · intro size t' ht
    rw [hn] at ht
    split at ht
    · simp at ht
    · simp at ht; subst ht; exact hp

/-- C76. The text of an IPv6 address is the canonical one: eight lower-case groups without leading
    zeros, the first longest run of two or more zero groups (and only it) replaced by "::". -/
theorem C76_canonical_text (ws : List Nat) (hl : ws.length = 8) (hw : ∀ w ∈ ws, w < 65536) (size : Int) (t : List Char) :
    ntop .inet6 (bytesOf ws) size = .ok t → Canonical ws t := by
  have hA : IsAddr 16 (bytesOf ws) := by
    refine ⟨by rw [bytesOf_length]; omega, ?_⟩
    intro b hb
    simp only [bytesOf, List.mem_flatMap] at hb
    obtain ⟨w, hm, hb⟩ := hb
    have := hw w hm
    simp at hb
    omega
  obtain ⟨u, hc, _, hn⟩ := ntop6_cases _ hA
  have e : words (bytesOf ws) = ws := by
    obtain ⟨w0,w1,w2,w3,w4,w5,w6,w7,hw',hws,ha⟩ := isAddr16 hA
    rw [hws]
    match ws, hl with
    | [x0,x1,x2,x3,x4,x5,x6,x7], _ =>
      simp [bytesOf] at ha
      simp
      refine ⟨?_,?_,?_,?_,?_,?_,?_,?_⟩ <;> omega
  rw [e] at hc
  intro h
  rw [hn] at h
  split at h
  · simp at h
  · simp at h; subst h; exact hc

/-- C66. Whatever the buffer size (even negative after conversion to `int`), the conversion either fails
    with ENOSPC writing nothing, or writes the text and its NUL, together at most `size` bytes; it fails
    exactly when text and NUL do not fit; and the text and NUL always fit the internal temporary
    (16 bytes for IPv4, 46 for IPv6). -/
theorem C66_bounded_output (af : Af) (n : Nat) (haf : af = .inet ∧ n = 4 ∨ af = .inet6 ∧ n = 16)
    (a : List Nat) (h : IsAddr n a) : ∃ t : List Char,
    t.length + 1 ≤ (if af = .inet then 16 else 46) ∧
    ∀ size : Int,
      ((t.length + 1 : Int) ≤ size → ntop af a size = .ok t ∧ (written (ntop af a size) : Int) ≤ size) ∧
      ((t.length + 1 : Int) > size → ntop af a size = .error ENOSPC ∧ written (ntop af a size) = 0) := by
  rcases haf with ⟨rfl, rfl⟩ | ⟨rfl, rfl⟩
  · obtain ⟨x,y,z,w,rfl,hx,hy,hz,hw⟩ := isAddr4 h
    have hl := quad_len x y z w hx hy hz hw
    refine ⟨quad [x,y,z,w], by simp; omega, ?_⟩
    intro size
    constructor
    · intro hs
      have : ntop .inet [x,y,z,w] size = .ok (quad [x,y,z,w]) := by
        simp only [ntop, ntop4]; rw [if_neg (by omega)]
      rw [this]; exact ⟨rfl, by simp only [written]; omega⟩
    · intro hs
      have : ntop .inet [x,y,z,w] size = .error ENOSPC := by
        simp only [ntop, ntop4]; rw [if_pos (by omega)]
      rw [this]; exact ⟨rfl, rfl⟩
  · obtain ⟨t, _, hl, hn⟩ := ntop6_cases a h
    refine ⟨t, by simp; omega, ?_⟩
    intro size
    rw [hn]
    constructor
    · intro hs
      rw [if_neg (by omega)]; exact ⟨rfl, by simp only [written]; omega⟩
    · intro hs
      rw [if_pos (by omega)]; exact ⟨rfl, rfl⟩

/-! ### The string API -/

theorem colon_in_v6 {s a} (h : V6Text s a) : ':' ∈ s := by
  cases h with
  | full ht hl =>
    cases ht with
    | one _ => simp at hl
    | quad h => have := h.1; omega
    | cons _ _ => simp
  | compressed => simp

theorem colon_notin_digits (n : Nat) : ':' ∉ Nat.toDigits 10 n := by
  intro h
  have := Nat.isDigit_of_mem_toDigits (by omega) (by omega) h
  simp at this

theorem colon_notin_dotted {a} (h : IsAddr 4 a) : ':' ∉ dotted a := by
  obtain ⟨x,y,z,w,rfl,_⟩ := isAddr4 h
  rw [dotted4]
  simp [quad, colon_notin_digits]

/-- C77 (parsing). The string-to-address call accepts exactly the canonical dotted quads, returning 4 and
    the four bytes, and the RFC 4291 IPv6 forms, returning 16 and the sixteen bytes. -/
theorem C77_from_string (s : List Char) (n : Nat) (a : List Nat) :
    addrFromString s = some (n, a) ↔ (n = 4 ∧ IsAddr 4 a ∧ s = dotted a) ∨ (n = 16 ∧ V6Text s a) := by
  unfold addrFromString
  by_cases hc : ':' ∈ s
  · rw [if_pos hc]
    constructor
    · intro h
      cases hp : pton .inet6 s with
      | one b =>
        simp [hp] at h
        obtain ⟨rfl, rfl⟩ := h
        exact Or.inr ⟨rfl, (C65_parser_grammar s b).1 hp⟩
      | zero => simp [hp] at h
      | unsupported => simp [hp] at h
    · rintro (⟨rfl, h1, rfl⟩ | ⟨rfl, h⟩)
      · exact absurd hc (colon_notin_dotted h1)
      · rw [(C65_parser_grammar s a).2 h]
  · rw [if_neg hc]
    constructor
    · intro h
      cases hp : pton .inet s with
      | one b =>
        simp [hp] at h
        obtain ⟨rfl, rfl⟩ := h
        exact Or.inl ⟨rfl, (C64_ipv4_text s b).1.1 hp⟩
      | zero => simp [hp] at h
      | unsupported => simp [hp] at h
    · rintro (⟨rfl, h⟩ | ⟨rfl, h⟩)
      · rw [(C64_ipv4_text s a).1.2 h]
      · exact absurd (colon_in_v6 h) hc

/-- C77 (round trip). For an address of either family and a buffer of 46 bytes up to 2 GiB, the text
    written is parsed back by the string-to-address call to the same bytes and the right size. -/
theorem C77_round_trip (af : Af) (n : Nat) (haf : af = .inet ∧ n = 4 ∨ af = .inet6 ∧ n = 16)
    (a : List Nat) (h : IsAddr n a) (bufLen : BitVec 64) (h1 : 46 ≤ bufLen.toNat) (h2 : bufLen.toNat < 2 ^ 31) :
    ∃ t, addrStr af a bufLen = some t ∧ addrFromString t = some (n, a) := by
  have hsz : (bufLen.truncate 32 : BitVec 32).toInt = bufLen.toNat := by
    rw [BitVec.truncate_eq_setWidth, BitVec.toInt_eq_toNat_cond, BitVec.toNat_setWidth]
    rw [if_pos (by omega)]; omega
  rcases haf with ⟨rfl, rfl⟩ | ⟨rfl, rfl⟩
  · obtain ⟨t, e1, e2⟩ := (C64_ipv4_text [] a).2 h bufLen.toNat (by omega)
    refine ⟨t, by simp only [addrStr, hsz, e1], ?_⟩
    exact (C77_from_string t 4 a).2 (Or.inl ⟨rfl, (C64_ipv4_text t a).1.1 e2⟩)
  · obtain ⟨t, e1, e2⟩ := (C65_ipv6_round_trip a h).1 bufLen.toNat (by omega)
    refine ⟨t, by simp only [addrStr, hsz, e1], ?_⟩
    exact (C77_from_string t 16 a).2 (Or.inr ⟨rfl, (C65_parser_grammar t a).1 e2⟩)

/-- C77 (defect). With a buffer too small for the text the call still returns the buffer, but nothing has
    been written to it: not even an empty string. -/
theorem C77_small_buffer_untouched : addrStr .inet [192, 168, 100, 100] 15 = none := by decide +kernel

/-! ## Non-vacuity -/
example : ntop .inet [192,0,2,255] 16 = .ok "192.0.2.255".toList := by decide +kernel
example : ntop .inet [192,0,2,255] 11 = .error ENOSPC := by decide +kernel
example : pton .inet "1.2.3.04".toList = .zero ∧ pton .inet "1.2.3".toList = .zero ∧ pton .inet "1.2.3.256".toList = .zero := by
  decide +kernel
example : ntop .inet6 [0x20,1,0xd,0xb8,0,0,0,0,0,1,0,0,0,0,0,1] 46 = .ok "2001:db8::1:0:0:1".toList := by decide +kernel
example : ntop .inet6 [0,0,0,0,0,0,0,0,0,0,0xff,0xff,10,0,0,1] 46 = .ok "::ffff:10.0.0.1".toList := by decide +kernel
example : pton .inet6 "::FFFF:10.0.0.1".toList = .one [0,0,0,0,0,0,0,0,0,0,0xff,0xff,10,0,0,1] := by decide +kernel
example : pton .inet6 "1:2:3:4:5:6:7:8::".toList = .zero := by decide +kernel

end Verif.Inet
