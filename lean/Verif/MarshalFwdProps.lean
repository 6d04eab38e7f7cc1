import Verif.MarshalFwd

/-! Properties C226 (what was accepted can be forwarded) and C227 (accepted bytes are accounted for). -/

namespace Verif.MarshalFwd
open Verif.Marshal Verif.Marshal.Spec

/-- Everything at once, for an accepted call. -/
theorem accepted {be : Bool} {env : Env} (hd : Described env) {t n : Nat} {ch ch' : Chain} (hc : NoEmpty ch) {v : Val}
    (hs : ch.flatten.length < 65536 ∨ NoText env)
    (h : Returns (fun f => unmarshal be true env f t ch) (.ok (v, ch', n))) :
    ∃ p bs, ch.flatten = p ++ ch'.flatten ∧ p.length = n ∧ NoEmpty ch' ∧ Wire be env (.obj t v) bs ∧ Rewritten p bs ∧
      (NoFlags env → p = bs) ∧ ∃ f, Reads (unmarshal be true env f t) p v := by
  obtain ⟨_, f, h⟩ := h
  have h1 := h f (Nat.le_refl _)
  have h2 := unmarshal_same (be := be) (junk := true) (env := env) f t ch hc
  dsimp only at h1
  rw [h1] at h2
  cases hu : unmarshal be true env f t [ch.flatten] with
  | ok x =>
    obtain ⟨v', c', m⟩ := x
    rw [hu] at h2
    obtain ⟨rfl, rfl, hn, rfl⟩ := h2
    obtain ⟨p, r, bs, h3, h4, h5, h6, h7, h8, h9⟩ := unmarshal_canon hd f t _ _ _ _ hs hu
    simp only [List.cons.injEq, and_true] at h4
    exact ⟨p, bs, by rw [h3, ← h4], h5, hn, h7, h8, h9, f, h6⟩
  | _ => rw [hu] at h2; exact h2.elim

/-! ## C226 -/

/-- **C226** (partial): for every byte string, in any segmentation, and every descriptor graph: when a receiver accepts
    an object, it can encode what it got: exactly as many bytes come out as were consumed, the same ones but for flag
    bytes other than 0 and 1, which become 1, and every other receiver reads the same object from them.
    Missing: messages of 64 KiB and more with text in them (`C226_long_violated`). As for C21, the uninitialised
    `helper_type.is_have` is taken to be NULL. -/
theorem C226_forward_partial {be : Bool} {env : Env} (hd : Described env) {t n : Nat} {ch ch' : Chain} (hc : NoEmpty ch) {v : Val}
    (hs : ch.flatten.length < 65536 ∨ NoText env)
    (h : Returns (fun f => unmarshal be true env f t ch) (.ok (v, ch', n))) {c : Cur} (hg : Good c) :
    ∃ bs c', Returns (fun f => marshal be true env f t v c) (.ok (c', n)) ∧ payload c' = payload c ++ bs ∧
      Rewritten (ch.flatten.take n) bs ∧
      ∀ (d : Chain) (rest : List Byte), NoEmpty d → d.flatten = bs ++ rest →
        ∃ d', Returns (fun f => unmarshal be true env f t d) (.ok (v, d', n)) ∧ d'.flatten = rest := by
  obtain ⟨p, bs, h1, h2, _, h3, h4, _, _⟩ := accepted hd hc hs h
  obtain ⟨c', m1, _, m3⟩ := C21_marshal h3 hg
  have hl : bs.length = n := by rw [h4.length, h2]
  rw [hl] at m1
  refine ⟨bs, c', m1, m3, ?_, fun d rest hd' he => ?_⟩
  · rw [h1, ← h2, List.take_left]; exact h4
  · obtain ⟨d', u1, _, u3⟩ := C21_unmarshal h3 hd' he
    rw [hl] at u1
    exact ⟨d', u1, u3⟩

/-- **C226** (partial): without pointers and strings in the descriptors the bytes are the same. -/
theorem C226_same_partial {be : Bool} {env : Env} (hd : Described env) (hf : NoFlags env) {t n : Nat} {ch ch' : Chain}
    (hc : NoEmpty ch) {v : Val} (hs : ch.flatten.length < 65536 ∨ NoText env)
    (h : Returns (fun f => unmarshal be true env f t ch) (.ok (v, ch', n))) {c : Cur} (hg : Good c) :
    ∃ c', Returns (fun f => marshal be true env f t v c) (.ok (c', n)) ∧ payload c' = payload c ++ ch.flatten.take n := by
  obtain ⟨p, bs, h1, h2, _, h3, h4, h5, _⟩ := accepted hd hc hs h
  obtain ⟨c', m1, _, m3⟩ := C21_marshal h3 hg
  have hl : bs.length = n := by rw [h4.length, h2]
  rw [hl] at m1
  refine ⟨c', m1, ?_⟩
  rw [m3, h1, ← h2, List.take_left, h5 hf]

/-- **C226**, where the code breaks "the same bytes": a flag of any value but 0 and 1 is accepted and sent on as 1. -/
theorem C226_flag_violated (be : Bool) (env : Env) (t k : Nat) (x : Byte) (hx : x ≠ 0) (hx1 : x ≠ 1)
    (ht : env t = .pointer k) (hk : env k = .void) (c : Cur) :
    Returns (fun f => unmarshal be true env f t [[x]]) (.ok (.ptr (some .unit), [[]], 1)) ∧
    Returns (fun f => marshal be true env f t (.ptr (some .unit)) c) (.ok (putBytes c [1], 1)) ∧ [x] ≠ [1] := by
  refine ⟨⟨by simp, 2, fun f hf => ?_⟩, ⟨by simp, 2, fun f hf => ?_⟩, by simpa using hx1⟩
  · obtain ⟨f, rfl⟩ : ∃ g, f = g + 2 := ⟨f - 2, by omega⟩
    have hg : get [[x]] 1 = .ok ([x], [[]], 1) := rfl
    simp [unmarshal, ht, hk, hg, Out.bind, hx, sizeOk]
  · obtain ⟨f, rfl⟩ : ∃ g, f = g + 2 := ⟨f - 2, by omega⟩
    simp [marshal, ht, hk, put, Out.bind]

/-- **C226**, **C227**, where the code breaks both: the length of a text of 64 KiB and more is cut to 16 bits. The call
    reports `k` bytes consumed, but those bytes alone are refused: bytes behind them decide. What was accepted cannot be
    encoded: its text has no end. -/
theorem C226_long_violated (be : Bool) (env : Env) (t cap k : Nat) (ht : env t = .bytesNil cap) (hk : k ≤ cap)
    (hk1 : k < 65536) (z : List Byte) (hz : 0 ∉ z) (hl : z.length + 1 = 65536 + k) (c : Cur) :
    Returns (fun f => unmarshal be true env f t [z ++ [0]]) (.ok (.bytes (z.take k), [z.drop k ++ [0]], k)) ∧
    Returns (fun f => unmarshal be true env f t [z.take k]) (.err .emsgsize) ∧
    Returns (fun f => marshal be true env f t (.bytes (z.take k)) c) .ub := by
  have h1 : strSize [z ++ [0]] = .ok (65536 + k) := by
    have := strSize_str (rest := []) hz
    rw [hl, List.append_nil] at this; exact this
  have h2 : (65536 + k) % 65536 = k := by omega
  have h3 : 0 ∉ z.take k := fun h => hz (List.mem_of_mem_take h)
  have h4 : (z ++ [0]).take k = z.take k := by rw [List.take_append_of_le_length (by omega)]
  have h5 : (z ++ [0]).drop k = z.drop k ++ [0] := by rw [List.drop_append_of_le_length (by omega)]
  have h6 : cstr (z.take k) = .bytes (z.take k) := by unfold cstr; rw [if_neg (by simpa using h3)]
  have h7 : strSize [z.take k] = .err .emsgsize := by rw [strSize_single, findIdx_none h3]
  refine ⟨⟨by simp, 1, fun f hf => ?_⟩, ⟨by simp, 1, fun f hf => ?_⟩, ⟨by simp, 1, fun f hf => ?_⟩⟩
  · obtain ⟨f, rfl⟩ : ∃ g, f = g + 1 := ⟨f - 1, by omega⟩
    have h8 : get [z ++ [0]] k = .ok (z.take k, [z.drop k ++ [0]], k) := by
      unfold Verif.Marshal.get
      rw [getBytes_one, if_pos (by simp; omega), h4, h5]; rfl
    simp only [unmarshal, ht, h1, Out.bind, h2, h8, h6]
    rw [if_neg (by omega)]
  · obtain ⟨f, rfl⟩ : ∃ g, f = g + 1 := ⟨f - 1, by omega⟩
    simp only [unmarshal, ht, h7, Out.bind]
  · obtain ⟨f, rfl⟩ : ∃ g, f = g + 1 := ⟨f - 1, by omega⟩
    simp only [marshal, ht]

/-! ## C227 -/

/-- **C227** (partial): an accepted call consumes exactly the bytes it reports, from the front; these bytes alone decide
    the result, whatever follows them and however they are cut into segments; and a part of them is refused with EMSGSIZE.
    Missing: as for C226 (`C226_long_violated`). -/
theorem C227_accounted_partial {be : Bool} {env : Env} (hd : Described env) {t n : Nat} {ch ch' : Chain} (hc : NoEmpty ch) {v : Val}
    (hs : ch.flatten.length < 65536 ∨ NoText env)
    (h : Returns (fun f => unmarshal be true env f t ch) (.ok (v, ch', n))) :
    n ≤ ch.flatten.length ∧ ch'.flatten = ch.flatten.drop n ∧
    (∀ d : Chain, NoEmpty d → ∀ rest, d.flatten = ch.flatten.take n ++ rest →
      ∃ d', Returns (fun f => unmarshal be true env f t d) (.ok (v, d', n)) ∧ d'.flatten = rest) ∧
    (∀ d : Chain, NoEmpty d → ∀ k, k < n → d.flatten = ch.flatten.take k →
      Returns (fun f => unmarshal be true env f t d) (.err .emsgsize)) := by
  obtain ⟨p, bs, h1, h2, _, _, _, _, f0, h3⟩ := accepted hd hc hs h
  subst h2
  refine ⟨by rw [h1]; simp, by rw [h1]; simp, fun d hd' rest he => ?_, fun d hd' k hk he => ?_⟩
  · rw [h1, List.take_left] at he
    have i1 := h3.1 rest
    have i2 := unmarshal_same (be := be) (junk := true) (env := env) f0 t d hd'
    rw [he, i1] at i2
    cases hu : unmarshal be true env f0 t d with
    | ok x =>
      obtain ⟨v', d', n⟩ := x
      rw [hu] at i2
      obtain ⟨rfl, rfl, _, he'⟩ := i2
      exact ⟨d', le_stable (fun f => unmarshal_le f t d) hu (by simp), by simpa using he'.symm⟩
    | _ => rw [hu] at i2; exact i2.elim
  · rw [h1, List.take_append_of_le_length (by omega)] at he
    have hcut : Cut (p.take k) p := ⟨p.drop k, by
      intro hx; have := congrArg List.length hx; simp at this; omega, by simp⟩
    have i1 := h3.2 _ hcut
    have i2 := unmarshal_same (be := be) (junk := true) (env := env) f0 t d hd'
    rw [he, i1] at i2
    cases hu : unmarshal be true env f0 t d with
    | err e =>
      rw [hu] at i2
      have : e = .emsgsize := i2
      subst this
      exact le_stable (fun f => unmarshal_le f t d) hu (by simp)
    | _ => rw [hu] at i2; exact i2.elim

/-! ## Examples -/

namespace Examples

/-- 0: a structure of a pointer to a number, a text of up to 4 bytes and an array of numbers -/
def env : Env
  | 0 => .struct [⟨1, none⟩, ⟨3, none⟩, ⟨4, none⟩]
  | 1 => .pointer 2
  | 2 => .int 1
  | 3 => .bytesNil 4
  | 4 => .dynArray 2
  | _ => .void

def bytes : List Byte := [7, 5, 0x61, 0, 1, 0, 9, 0xff]
def val : Val := .struct [.ptr (some (.num 5)), .str (some [0x61]), .arr [.num 9]]

theorem described : Described env := by
  intro t c h
  unfold env at h
  split at h <;> simp at h
  subst h
  exact .leaf (by simp [env]) (by simp [env]) (by simp [env]) (by simp [env])

theorem accepts (f : Nat) (hf : 3 ≤ f) : unmarshal false true env f 0 [[7, 5, 0x61], [0, 1, 0, 9, 0xff]] = .ok (val, [[0xff]], 7) := by
  obtain ⟨f, rfl⟩ : ∃ g, f = g + 3 := ⟨f - 3, by omega⟩
  rfl

/-- the hypotheses of `C226_forward_partial` and `C227_accounted_partial` are met; the flag 7 becomes 1 -/
example : NoEmpty [[7, 5, 0x61], [0, 1, 0, 9, 0xff]] ∧
    Returns (fun f => unmarshal false true env f 0 [[7, 5, 0x61], [0, 1, 0, 9, 0xff]]) (.ok (val, [[0xff]], 7)) ∧
    Rewritten [7, 5, 0x61, 0, 1, 0, 9] [1, 5, 0x61, 0, 1, 0, 9] :=
  ⟨⟨by simp, by simp⟩, ⟨by simp, 3, accepts⟩, .flag (by decide) (.refl _)⟩

/-- the hypotheses of `C226_same_partial`: an array of records without flags -/
example : NoFlags (fun t => if t = 0 then .varArray 3 1 else .int 2) ∧ NoText (fun t => if t = 0 then .varArray 3 1 else .int 2) ∧
    Described (fun t => if t = 0 then .varArray 3 1 else .int 2) :=
  ⟨fun t => by by_cases h : t = 0 <;> simp [h], fun t => by by_cases h : t = 0 <;> simp [h],
    fun t c h => by by_cases h0 : t = 0 <;> simp [h0] at h⟩

/-- the hypotheses of `C226_long_violated` -/
example : (0 : Byte) ∉ List.replicate 65540 (1 : Byte) ∧ (List.replicate 65540 (1 : Byte)).length + 1 = 65536 + 5 :=
  ⟨fun h => absurd (List.mem_replicate.1 h).2 (by decide), by rw [List.length_replicate]⟩

end Examples

end Verif.MarshalFwd
