import Verif.SkAddr
import Verif.InetProps

/-! Properties of `SkAddr`: C189. -/

namespace Verif.SkAddr

open Verif.Inet

/-- Specification: the bytes of the socket address of an IPv4 address and a port, as the socket interface lays them out: family in the order of the host, port and address in network order. -/
def wire4 (be : Bool) (a : List Nat) (port : Nat) : List Nat := u16 be 2 ++ [port / 256, port % 256] ++ a ++ List.replicate 8 0

/-- And of an IPv6 address; flow information and scope 0. -/
def wire6 (be : Bool) (a : List Nat) (port : Nat) : List Nat := u16 be 10 ++ [port / 256, port % 256] ++ List.replicate 4 0 ++ a ++ List.replicate 4 0

theorem u16_len (be : Bool) (v : Nat) : (u16 be v).length = 2 := by cases be <;> rfl

theorem u16_hton (be : Bool) (p : Nat) (h : p < 65536) : u16 be (hton16 be p) = [p / 256, p % 256] := by
  cases be
  · simp only [u16, hton16, Bool.false_eq_true, if_false]
    congr 1
    · omega
    · congr 1; omega
  · rfl

theorem get_u16 (be : Bool) (v : Nat) (h : v < 65536) (r : List Nat) : get16 be (u16 be v ++ r) 0 = v := by
  cases be
  · simp only [get16, u16, Bool.false_eq_true, if_false]
    simp; omega
  · simp only [get16, u16, if_true]
    simp; omega

theorem get_port (be : Bool) (x : List Nat) (hx : x.length = 2) (p : Nat) (hp : p < 65536) (r : List Nat) : hton16 be (get16 be (x ++ [p / 256, p % 256] ++ r) 2) = p := by
  match x, hx with
  | [a, b], _ =>
    cases be
    · have h1 : p / 256 < 256 := by omega
      have h2 : (p % 256 * 256 + p / 256) % 256 = p / 256 := by omega
      have h3 : (p % 256 * 256 + p / 256) / 256 = p % 256 := by omega
      simp only [get16, hton16, Bool.false_eq_true, if_false]
      simp [h2, h3]; omega
    · simp only [get16, hton16, if_true]
      simp; omega

/-- Writing zeros, the address, the family and the port gives the wire form and leaves the rest. -/
theorem put4 (be : Bool) (m a : List Nat) (ha : a.length = 4) (p : Nat) (hp : p < 65536) :
    put (put (put (put m 0 (List.replicate szIn 0)) 4 a) 0 (u16 be AF_INET)) 2 (u16 be (hton16 be p)) = wire4 be a p ++ m.drop 16 := by
  rw [u16_hton be p hp]
  match a, ha with
  | [a, b, c, d], _ =>
    cases be <;> simp [put, szIn, wire4, u16, List.replicate, AF_INET]

theorem put6 (be : Bool) (m a : List Nat) (ha : a.length = 16) (p : Nat) (hp : p < 65536) :
    put (put (put (put m 0 (List.replicate szIn6 0)) 8 a) 0 (u16 be AF_INET6)) 2 (u16 be (hton16 be p)) = wire6 be a p ++ m.drop 28 := by
  rw [u16_hton be p hp]
  match a, ha with
  | [a, b, c, d, e, f, g, h, i, j, k, l, m', n, o, p'], _ =>
    cases be <;> simp [put, szIn6, wire6, u16, List.replicate, AF_INET6]

theorem v6_len {s a} (h : V6Text s a) : a.length = 16 := by
  cases h with
  | full _ h => exact h
  | compressed k _ _ _ h => simp; omega

/-- C189 (IPv4): a dotted quad is turned into the socket address of that address and port; bytes behind the 16 of an IPv4 socket address keep their values. -/
theorem C189_v4 (v6 be : Bool) (m a : List Nat) (h : IsAddr 4 a) (port : Nat) (hp : port < 65536) :
    fromString v6 be m (dotted a) port = (16, wire4 be a port ++ m.drop 16) := by
  have hc := colon_notin_dotted h
  have e := (C64_ipv4_text (dotted a) a).1.2 ⟨h, rfl⟩
  simp only [fromString, hc, and_false, if_false, e]
  rw [put4 be m a h.1 port hp]; rfl

/-- C189 (IPv6): every textual form of RFC 4291 is turned into the socket address of that address and port; without IPv6 it is refused. -/
theorem C189_v6 (be : Bool) (m : List Nat) (s : List Char) (a : List Nat) (h : V6Text s a) (port : Nat) (hp : port < 65536) :
    fromString true be m s port = (28, wire6 be a port ++ m.drop 28) ∧ (fromString false be m s port).1 = 0 := by
  have hc := colon_in_v6 h
  have e := (C65_parser_grammar s a).2 h
  constructor
  · simp only [fromString, hc, and_self, if_true, e]
    rw [put6 be m a (v6_len h) port hp]; rfl
  · simp only [fromString, Bool.false_eq_true, false_and, if_false]
    cases hp : pton .inet s with
    | one b =>
      have := (C64_ipv4_text s b).1.1 hp
      rw [this.2] at hc
      exact absurd hc (colon_notin_dotted this.1)
    | zero => rfl
    | unsupported => rfl

/-- C189 (nothing else): any other text is refused with 0, and then the address is of no family, with nothing left of what was there. -/
theorem C189_refused (v6 be : Bool) (m : List Nat) (s : List Char) (port : Nat) (h4 : ∀ a, IsAddr 4 a → s ≠ dotted a) (h6 : v6 = true → ∀ a, ¬ V6Text s a) :
    ∃ n, (n = 16 ∨ n = 28) ∧ fromString v6 be m s port = (0, List.replicate n 0 ++ m.drop n) ∧ family be (fromString v6 be m s port).2 = AF_UNSPEC := by
  have fam : ∀ n r, 2 ≤ n → family be (List.replicate n 0 ++ r) = AF_UNSPEC := by
    intro n r hn
    obtain ⟨k, rfl⟩ : ∃ k, n = k + 2 := ⟨n - 2, by omega⟩
    cases be <;> simp [family, get16, AF_UNSPEC, List.replicate_succ]
  by_cases hc : v6 = true ∧ ':' ∈ s
  · have e : ∀ a, pton .inet6 s ≠ .one a := fun a ha => h6 hc.1 a ((C65_parser_grammar s a).1 ha)
    have hf : fromString v6 be m s port = (0, List.replicate 28 0 ++ m.drop 28) := by
      simp only [fromString]
      rw [if_pos hc]
      cases hp : pton .inet6 s with
      | one b => exact absurd hp (e b)
      | zero => simp [put, szIn6]
      | unsupported => simp [put, szIn6]
    exact ⟨28, Or.inr rfl, hf, by rw [hf]; exact fam 28 _ (by omega)⟩
  · have e : ∀ a, pton .inet s ≠ .one a := fun a ha => h4 a ((C64_ipv4_text s a).1.1 ha).1 ((C64_ipv4_text s a).1.1 ha).2
    have hf : fromString v6 be m s port = (0, List.replicate 16 0 ++ m.drop 16) := by
      simp only [fromString]
      rw [if_neg hc]
      cases hp : pton .inet s with
      | one b => exact absurd hp (e b)
      | zero => simp [put, szIn]
      | unsupported => simp [put, szIn]
    exact ⟨16, Or.inl rfl, hf, by rw [hf]; exact fam 16 _ (by omega)⟩

/-- What the other calls say of a socket address. -/
theorem read4 (v6 be : Bool) (a r : List Nat) (ha : a.length = 4) (port : Nat) (hp : port < 65536) :
    family be (wire4 be a port ++ r) = AF_INET ∧ portOf v6 be (wire4 be a port ++ r) = port ∧ ((wire4 be a port ++ r).drop 4).take 4 = a := by
  have hf : family be (wire4 be a port ++ r) = AF_INET := by
    simp only [wire4, List.append_assoc, family]; exact get_u16 be 2 (by omega) _
  refine ⟨hf, ?_, ?_⟩
  · simp only [portOf, hf, if_true]
    have := get_port be (u16 be 2) (u16_len be 2) port hp (a ++ List.replicate 8 0 ++ r)
    simpa [wire4] using this
  · have : wire4 be a port ++ r = (u16 be 2 ++ [port / 256, port % 256]) ++ (a ++ (List.replicate 8 0 ++ r)) := by simp [wire4]
    rw [this, List.drop_left' (by simp [u16_len]), List.take_left' ha]

theorem read6 (be : Bool) (a r : List Nat) (ha : a.length = 16) (port : Nat) (hp : port < 65536) :
    family be (wire6 be a port ++ r) = AF_INET6 ∧ portOf true be (wire6 be a port ++ r) = port ∧ ((wire6 be a port ++ r).drop 8).take 16 = a := by
  have hf : family be (wire6 be a port ++ r) = AF_INET6 := by
    simp only [wire6, List.append_assoc, family]; exact get_u16 be 10 (by omega) _
  refine ⟨hf, ?_, ?_⟩
  · simp only [portOf, hf]
    have := get_port be (u16 be 10) (u16_len be 10) port hp (List.replicate 4 0 ++ a ++ List.replicate 4 0 ++ r)
    simpa [wire6, AF_INET, AF_INET6] using this
  · have : wire6 be a port ++ r = (u16 be 10 ++ [port / 256, port % 256] ++ List.replicate 4 0) ++ (a ++ (List.replicate 4 0 ++ r)) := by simp [wire6]
    rw [this, List.drop_left' (by simp [u16_len]), List.take_left' ha]

/-- C189 (round trip): the text of a socket address, with its port, gives back an address with the same family, port and IP; whatever memory it is written to. -/
theorem C189_round_trip (be : Bool) (m a r : List Nat) (port : Nat) (hp : port < 65536) (six : Bool) (h : IsAddr (if six then 16 else 4) a)
    (bufLen : BitVec 64) (h1 : 46 ≤ bufLen.toNat) (h2 : bufLen.toNat < 2 ^ 31) (x : List Nat) (hx : x = (if six then wire6 be a port else wire4 be a port) ++ r) :
    ∃ t y, str true be x bufLen = some t ∧ fromString true be m t (portOf true be x) = (if six then 28 else 16, y) ∧
      family be y = family be x ∧ portOf true be y = port ∧ ipEqual true be x y = true := by
  cases six with
  | false =>
    simp only [Bool.false_eq_true, if_false] at h hx ⊢
    obtain ⟨f1, f2, f3⟩ := read4 true be a r h.1 port hp
    obtain ⟨t, e1, e2⟩ := C77_round_trip .inet 4 (Or.inl ⟨rfl, rfl⟩) a h bufLen h1 h2
    have ht : t = dotted a := by
      rcases (C77_from_string t 4 a).1 e2 with ⟨_, _, h⟩ | ⟨h, _⟩
      · exact h
      · cases h
    obtain ⟨g1, g2, g3⟩ := read4 true be a (m.drop 16) h.1 port hp
    refine ⟨t, wire4 be a port ++ m.drop 16, ?_, ?_, ?_, g2, ?_⟩
    · rw [hx]; simp only [str, f1, if_true, f3]; exact e1
    · rw [hx, f2, ht]; exact C189_v4 true be m a h port hp
    · rw [hx, f1, g1]
    · rw [hx]; simp [ipEqual, f1, g1, f3, g3, AF_INET, AF_UNSPEC]
  | true =>
    simp only [if_true] at h hx ⊢
    obtain ⟨f1, f2, f3⟩ := read6 be a r h.1 port hp
    obtain ⟨t, e1, e2⟩ := C77_round_trip .inet6 16 (Or.inr ⟨rfl, rfl⟩) a h bufLen h1 h2
    have ht : V6Text t a := by
      rcases (C77_from_string t 16 a).1 e2 with ⟨h, _⟩ | ⟨_, h⟩
      · cases h
      · exact h
    obtain ⟨g1, g2, g3⟩ := read6 be a (m.drop 28) h.1 port hp
    refine ⟨t, wire6 be a port ++ m.drop 28, ?_, ?_, ?_, g2, ?_⟩
    · rw [hx]; simp only [str, f1, f3]; simpa [AF_INET, AF_INET6] using e1
    · rw [hx, f2]; exact (C189_v6 be m t a ht port hp).1
    · rw [hx, f1, g1]
    · rw [hx]; simp [ipEqual, f1, g1, f3, g3, AF_INET, AF_INET6, AF_UNSPEC]

/-- C189: equality of IPs distinguishes: two socket addresses of texts are equal exactly if family and address bytes are, whatever the ports. -/
theorem C189_equal (be : Bool) (a b r1 r2 : List Nat) (p q : Nat) (ha : a.length = 4) (hb : b.length = 4) (hp : p < 65536) (hq : q < 65536) (c : List Nat) (hc : c.length = 16) :
    (ipEqual true be (wire4 be a p ++ r1) (wire4 be b q ++ r2) = true ↔ a = b) ∧ ipEqual true be (wire4 be a p ++ r1) (wire6 be c q ++ r2) = false := by
  obtain ⟨f1, _, f3⟩ := read4 true be a r1 ha p hp
  obtain ⟨g1, _, g3⟩ := read4 true be b r2 hb q hq
  obtain ⟨k1, _, _⟩ := read6 be c r2 hc q hq
  constructor
  · simp [ipEqual, f1, g1, f3, g3, AF_INET, AF_UNSPEC]
  · simp [ipEqual, f1, k1, AF_INET, AF_INET6]

/-- C189: an address of another family (without CONFIG_AOSL_IPV6 that of IPv6 is another one too) has the port 0, is written as `<Unknown af N>`, and has no IP in common with any address, itself
included, unless the family is AF_UNSPEC: then it has with every address of that family. -/
theorem C189_other_family (v6 be : Bool) (m k : List Nat) (n : BitVec 64) (h4 : family be m ≠ 2) (h6 : ¬ (v6 = true ∧ family be m = 10)) :
    portOf v6 be m = 0 ∧ str v6 be m n = some (("<Unknown af " ++ toString (family be m) ++ ">").toList) ∧ (ipEqual v6 be m k = true ↔ family be m = 0 ∧ family be k = 0) := by
  have h6' : ¬ (v6 = true ∧ family be m = AF_INET6) := h6
  have h4' : family be m ≠ AF_INET := h4
  refine ⟨by simp only [portOf, if_neg h4', if_neg h6'], ?_, ?_⟩
  · simp only [str, if_neg h4', if_neg h6']
    simp [String.toList_append, toString, Nat.repr]
  · simp only [ipEqual, AF_UNSPEC, if_neg h4', if_neg h6']
    split
    · rename_i h; constructor
      · intro e; cases e
      · intro ⟨e1, e2⟩; rw [e1, e2] at h; exact absurd rfl h
    · rename_i h; have h : family be m = family be k := Decidable.not_not.mp h
      split
      · rename_i e; rw [← h]; simp [e]
      · rename_i e; simp [e]

example : portOf true false [7, 0, 31, 144] = 0 ∧ str true false [7, 0, 31, 144] 46 = some "<Unknown af 7>".toList ∧ ipEqual true false [0, 0, 1] [0, 0, 2] = true ∧ ipEqual true false [7, 0] [7, 0] = false := by
  decide +kernel

example : fromString true false (List.replicate 28 7) "192.0.2.1".toList 8080 = (16, [2, 0, 31, 144, 192, 0, 2, 1, 0, 0, 0, 0, 0, 0, 0, 0] ++ List.replicate 12 7) := by decide +kernel
example : fromString true false (List.replicate 28 7) "2001:db8::1".toList 443 =
    (28, [10, 0, 1, 187, 0, 0, 0, 0, 0x20, 1, 0xd, 0xb8, 0, 0, 0, 0, 0, 0, 0, 0, 0, 0, 0, 1, 0, 0, 0, 0]) := by decide +kernel
example : fromString true false (List.replicate 28 7) "1.2.3".toList 1 = (0, List.replicate 16 0 ++ List.replicate 12 7) := by decide +kernel
example : str true false (wire6 false [0, 0, 0, 0, 0, 0, 0, 0, 0, 0, 0, 0, 0, 0, 0, 1] 5) 46 = some "::1".toList := by decide +kernel

end Verif.SkAddr
