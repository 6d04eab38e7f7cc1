import Verif.Psb
/-!
  Properties C09–C14: the packet buffer.
-/
namespace Verif.Psb

/-! ## Specification: a buffer is a byte queue with room on both sides -/
namespace Spec

/-- Calls as a user issues them: `put`/`push` are followed by writing the bytes to the returned
    area, `get` by reading the returned area. -/
inductive Op where
  | reserve (n : Nat)
  | put (bs : List UInt8)
  | push (bs : List UInt8)
  | get (n : Nat)
  | pull (n : Nat)
  | peek (n : Nat)
  | reset

/-- What the user observes. -/
inductive Obs where
  | ok | fail | bytes (bs : List UInt8)
  deriving DecidableEq, Repr

/-- Abstract buffer: room before the payload, the payload. -/
structure Buf where
  room : Nat
  payload : List UInt8
  deriving DecidableEq, Repr

def step (size : Nat) (b : Buf) : Op → Buf × Obs
  | .reserve n =>
    if b.payload = [] ∧ b.room + n ≤ size then (⟨b.room + n, []⟩, .ok) else (b, .fail)
  | .put bs =>
    if b.room + b.payload.length + bs.length ≤ size then (⟨b.room, b.payload ++ bs⟩, .ok) else (b, .fail)
  | .push bs =>
    if bs.length ≤ b.room then (⟨b.room - bs.length, bs ++ b.payload⟩, .ok) else (b, .fail)
  | .get n =>
    if n ≤ b.payload.length then (⟨b.room + n, b.payload.drop n⟩, .bytes (b.payload.take n)) else (b, .fail)
  | .pull n =>
    if n ≤ b.payload.length then (⟨b.room + n, b.payload.drop n⟩, .ok) else (b, .fail)
  | .peek n =>
    if n ≤ b.payload.length then (b, .bytes (b.payload.take n)) else (b, .fail)
  | .reset => (⟨0, []⟩, .ok)

def run (size : Nat) (b : Buf) : List Op → Buf × List Obs
  | [] => (b, [])
  | op :: ops => let (b', o) := step size b op; let (b'', os) := run size b' ops; (b'', o :: os)

/-- The length of a call stays below 2^31. -/
def Op.small : Op → Prop
  | .reserve n | .get n | .pull n | .peek n => n < 2 ^ 31
  | .put bs | .push bs => bs.length < 2 ^ 31
  | .reset => True

end Spec
open Spec

/-! ## Running the model -/

def exec (p : Psb) : Op → Psb × Obs
  | .reserve n => match reserve p n with
    | (p', .ok _) => (p', .ok)
    | (p', .error _) => (p', .fail)
  | .put bs => match put p bs.length with
    | (p', .ok o) => ({ p' with mem := store p'.mem o bs }, .ok)
    | (p', .error _) => (p', .fail)
  | .push bs => match push p bs.length with
    | (p', .ok o) => ({ p' with mem := store p'.mem o bs }, .ok)
    | (p', .error _) => (p', .fail)
  | .get n => match get p n with
    | (p', .ok o) => (p', .bytes (load p'.mem o n))
    | (p', .error _) => (p', .fail)
  | .pull n => match pull p n with
    | (p', .ok _) => (p', .ok)
    | (p', .error _) => (p', .fail)
  | .peek n => match peek p n with
    | .ok o => (p, .bytes (load p.mem o n))
    | .error _ => (p, .fail)
  | .reset => (resetOne p, .ok)

def execAll (p : Psb) : List Op → Psb × List Obs
  | [] => (p, [])
  | op :: ops => let (p', o) := exec p op; let (p'', os) := execAll p' ops; (p'', o :: os)

/-! ## Proofs -/

/-- Geometry invariant. -/
structure Inv (p : Psb) : Prop where
  off : 0 ≤ p.off
  fit : p.off + p.len ≤ p.size
  size : p.size < 2 ^ 32

theorem u32_small {n : Nat} (h : n < 2 ^ 31) : u32 n = n := Nat.mod_eq_of_lt (by omega)
theorem u32i_eq {i : Int} (h0 : 0 ≤ i) (h : i < 2 ^ 32) : u32i i = i.toNat := by
  unfold u32i; rw [Int.emod_eq_of_lt h0 h]
theorem u64i_eq {i : Int} (h0 : 0 ≤ i) (h : i < 2 ^ 64) : u64i i = i.toNat := by
  unfold u64i; rw [Int.emod_eq_of_lt h0 h]
theorem sint_small {n : Nat} (h : n < 2 ^ 31) : sint n = n := by simp [sint, h]

theorem length_load (m : Int → UInt8) (o : Int) (n : Nat) : (load m o n).length = n := by simp [load]

theorem load_add (m : Int → UInt8) (o : Int) (a b : Nat) :
    load m o (a + b) = load m o a ++ load m (o + a) b := by
  simp only [load, List.range_add, List.map_append, List.map_map]
  congr 1
  apply List.map_congr_left
  intro i _
  simp [Int.add_assoc]

theorem load_congr {m m' : Int → UInt8} {o : Int} {n : Nat}
    (h : ∀ x, o ≤ x → x < o + n → m x = m' x) : load m o n = load m' o n := by
  apply List.map_congr_left
  intro i hi
  have : i < n := by simpa using hi
  exact h _ (by omega) (by omega)

theorem load_store_same (m : Int → UInt8) (o : Int) (bs : List UInt8) :
    load (store m o bs) o bs.length = bs := by
  apply List.ext_getElem
  · simp [load]
  · intro i h1 h2
    have e : (o + (i : Int) - o).toNat = i := by omega
    simp [load, store, e, h2]
    omega

theorem load_store_other (m : Int → UInt8) (o o' : Int) (n : Nat) (bs : List UInt8)
    (h : o' + n ≤ o ∨ o + bs.length ≤ o') : load (store m o bs) o' n = load m o' n := by
  apply load_congr
  intro x h1 h2
  have : ¬ (o ≤ x ∧ x < o + bs.length) := by omega
  simp [store, this]

/-- Abstraction: headroom and payload bytes. -/
def abs (p : Psb) : Buf := ⟨p.off.toNat, load p.mem p.off p.len⟩

theorem load_take (m : Int → UInt8) (o : Int) (n k : Nat) (h : k ≤ n) :
    (load m o n).take k = load m o k ∧ (load m o n).drop k = load m (o + k) (n - k) := by
  obtain ⟨d, rfl⟩ := Nat.exists_eq_add_of_le h
  rw [load_add]
  have := length_load m o k
  constructor
  · rw [List.take_left' this]
  · rw [List.drop_left' this]; congr 1; omega

theorem exec_refines {p : Psb} (h : Inv p) (op : Op) (hs : Op.small op) :
    Inv (exec p op).1 ∧ (exec p op).1.size = p.size ∧
    (abs (exec p op).1, (exec p op).2) = step p.size (abs p) op := by
  obtain ⟨h1, h2, h3⟩ := h
  have hlen : (abs p).payload.length = p.len := length_load _ _ _
  cases op with
  | reserve n =>
    have hn : n < 2 ^ 31 := hs
    simp only [exec, reserve, u32_small hn]
    have e64 : u64i (p.size - p.off) = (p.size - p.off).toNat := u64i_eq (by omega) (by omega)
    rw [e64]
    by_cases hl : p.len > 0
    · have : (abs p).payload ≠ [] := by intro e; rw [e] at hlen; simp at hlen; omega
      simp only [hl, if_true, step, this, false_and, if_false]
      exact ⟨⟨h1, h2, h3⟩, trivial, trivial⟩
    · have hl0 : p.len = 0 := by omega
      have hp : (abs p).payload = [] := List.eq_nil_of_length_eq_zero (by omega)
      by_cases hr : (p.size - p.off).toNat ≥ n
      · have : (abs p).room + n ≤ p.size := by simp [abs]; omega
        simp only [hl, hr, if_false, if_true, step, hp, this, and_self]
        refine ⟨⟨by simp; omega, by simp; omega, h3⟩, trivial, ?_⟩
        simp [abs, load, hl0]; omega
      · have : ¬ (abs p).room + n ≤ p.size := by simp [abs]; omega
        simp only [hl, hr, if_false, step, this, and_false]
        exact ⟨⟨h1, h2, h3⟩, trivial, trivial⟩
  | put bs =>
    have hn : bs.length < 2 ^ 31 := hs
    simp only [exec, put, u32_small hn]
    by_cases hr : p.off + p.len + bs.length ≤ p.size
    · have hr' : (abs p).room + (abs p).payload.length + bs.length ≤ p.size := by
        rw [hlen]; simp [abs]; omega
      have hm : (p.len + bs.length) % 2 ^ 64 = p.len + bs.length := Nat.mod_eq_of_lt (by omega)
      simp only [hr, if_true, step, hr', hm]
      refine ⟨⟨h1, by simp; omega, h3⟩, trivial, ?_⟩
      simp only [abs, load_add, load_store_same, Prod.mk.injEq, and_true, Buf.mk.injEq, true_and]
      rw [load_store_other _ _ _ _ _ (by omega)]
    · have hr' : ¬ (abs p).room + (abs p).payload.length + bs.length ≤ p.size := by
        rw [hlen]; simp [abs]; omega
      simp only [hr, if_false, step, hr']
      exact ⟨⟨h1, h2, h3⟩, trivial, trivial⟩
  | push bs =>
    have hn : bs.length < 2 ^ 31 := hs
    simp only [exec, push, u32_small hn, sint_small hn]
    by_cases hr : p.off < bs.length
    · have hr' : ¬ bs.length ≤ (abs p).room := by simp [abs]; omega
      simp only [hr, if_true, step, hr', if_false]
      exact ⟨⟨h1, h2, h3⟩, trivial, trivial⟩
    · have hr' : bs.length ≤ (abs p).room := by simp [abs]; omega
      have hm : (p.len + bs.length) % 2 ^ 64 = bs.length + p.len := by
        rw [Nat.add_comm]; exact Nat.mod_eq_of_lt (by omega)
      simp only [hr, if_false, step, hr', if_true, hm]
      refine ⟨⟨by simp; omega, by simp; omega, h3⟩, trivial, ?_⟩
      simp only [abs, load_add, load_store_same, Prod.mk.injEq, and_true, Buf.mk.injEq]
      refine ⟨by omega, ?_⟩
      rw [load_store_other _ _ _ _ _ (by omega)]
      congr 2; omega
  | get n =>
    have hn : n < 2 ^ 31 := hs
    simp only [exec, get, u32_small hn]
    by_cases hr : p.len ≥ n
    · have hr' : n ≤ (abs p).payload.length := by omega
      obtain ⟨t1, t2⟩ := load_take p.mem p.off p.len n hr
      simp only [hr, if_true, step, hr']
      refine ⟨⟨by simp; omega, by simp; omega, h3⟩, trivial, ?_⟩
      simp only [abs, t1, t2, Prod.mk.injEq, and_true, Buf.mk.injEq]
      omega
    · have hr' : ¬ n ≤ (abs p).payload.length := by omega
      simp only [hr, if_false, step, hr']
      exact ⟨⟨h1, h2, h3⟩, trivial, trivial⟩
  | pull n =>
    have hn : n < 2 ^ 31 := hs
    simp only [exec, pull, u32_small hn]
    by_cases hr : p.len < n
    · have hr' : ¬ n ≤ (abs p).payload.length := by omega
      simp only [hr, if_true, step, hr', if_false]
      exact ⟨⟨h1, h2, h3⟩, trivial, trivial⟩
    · have hr' : n ≤ (abs p).payload.length := by omega
      obtain ⟨t1, t2⟩ := load_take p.mem p.off p.len n (by omega)
      simp only [hr, if_false, step, hr', if_true]
      refine ⟨⟨by simp; omega, by simp; omega, h3⟩, trivial, ?_⟩
      simp only [abs, t2, Prod.mk.injEq, and_true, Buf.mk.injEq]
      omega
  | peek n =>
    have hn : n < 2 ^ 31 := hs
    simp only [exec, peek, u32_small hn]
    by_cases hr : p.len ≥ n
    · have hr' : n ≤ (abs p).payload.length := by omega
      obtain ⟨t1, t2⟩ := load_take p.mem p.off p.len n hr
      simp only [hr, if_true, step, hr']
      exact ⟨⟨h1, h2, h3⟩, trivial, by simp [abs, t1]⟩
    · have hr' : ¬ n ≤ (abs p).payload.length := by omega
      simp only [hr, if_false, step, hr']
      exact ⟨⟨h1, h2, h3⟩, trivial, trivial⟩
  | reset =>
    simp only [exec, resetOne, step]
    exact ⟨⟨by simp, by simp, h3⟩, trivial, by simp [abs, load]⟩

theorem execAll_refines {p : Psb} (h : Inv p) (ops : List Op) (hs : ∀ op ∈ ops, Op.small op) :
    Inv (execAll p ops).1 ∧ (execAll p ops).1.size = p.size ∧
    (abs (execAll p ops).1, (execAll p ops).2) = run p.size (abs p) ops := by
  induction ops generalizing p with
  | nil => exact ⟨h, rfl, rfl⟩
  | cons op ops ih =>
    obtain ⟨h1, h2, h3⟩ := exec_refines h op (hs op (by simp))
    obtain ⟨i1, i2, i3⟩ := ih h1 (fun o ho => hs o (by simp [ho]))
    refine ⟨i1, by rw [← h2]; exact i2, ?_⟩
    simp only [execAll, run]
    rw [← h3]
    rw [h2] at i3
    simp only []
    rw [← i3]

theorem inv_fresh {size : Nat} (h : size < 2 ^ 32) (mem : Int → UInt8) : Inv (fresh size mem) :=
  ⟨by simp [fresh], by simp [fresh], h⟩

/-- C09. After any history of calls with lengths below 2^31 on a buffer of any size below 4 GiB, the
    data window lies inside the buffer and headroom, data length and tailroom add up to its size. -/
theorem C09_geometry (size : Nat) (hsize : size < 2 ^ 32) (mem : Int → UInt8) (ops : List Op)
    (hs : ∀ op ∈ ops, Op.small op) :
    let p := (execAll (fresh size mem) ops).1
    0 ≤ p.off ∧ p.off + p.len ≤ size ∧ (headroom p : Int) = p.off ∧
      headroom p + p.len + tailroom p = size := by
  obtain ⟨⟨h1, h2, h3⟩, h4, _⟩ := execAll_refines (inv_fresh hsize mem) ops hs
  have h4' : (execAll (fresh size mem) ops).1.size = size := h4
  generalize (execAll (fresh size mem) ops).1 = p at *
  have e1 : headroom p = p.off.toNat := u32i_eq h1 (by omega)
  have e2 : tailroom p = ((p.size : Int) - p.len - p.off).toNat := u32i_eq (by omega) (by omega)
  simp only []
  omega

/-- C10. In any reachable state each call with a length below 2^31 succeeds exactly when room resp.
    data suffice and then moves exactly that many bytes; otherwise it changes nothing. -/
theorem C10_all_or_nothing (size : Nat) (hsize : size < 2 ^ 32) (mem : Int → UInt8) (ops : List Op)
    (hs : ∀ op ∈ ops, Op.small op) (n : Nat) (hn : n < 2 ^ 31) :
    let p := (execAll (fresh size mem) ops).1
    (if n ≤ tailroom p then put p n = ({ p with len := p.len + n }, .ok (p.off + p.len))
      else put p n = (p, .error .ENOSPC)) ∧
    (if n ≤ p.len then get p n = ({ p with off := p.off + n, len := p.len - n }, .ok p.off)
      else get p n = (p, .error .ENOSPC)) ∧
    (if n ≤ p.len then pull p n = ({ p with off := p.off + n, len := p.len - n }, .ok (p.off + n))
      else pull p n = (p, .error .ENOSPC)) ∧
    (if n ≤ headroom p then push p n = ({ p with off := p.off - n, len := p.len + n }, .ok (p.off - n))
      else push p n = (p, .error .ENOSPC)) ∧
    (if 0 < p.len then reserve p n = (p, .error .EPERM)
      else if n ≤ tailroom p then reserve p n = ({ p with off := p.off + n }, .ok ())
      else reserve p n = (p, .error .ENOSPC)) := by
  obtain ⟨⟨h1, h2, h3⟩, h4, _⟩ := execAll_refines (inv_fresh hsize mem) ops hs
  generalize (execAll (fresh size mem) ops).1 = p at *
  have e1 : headroom p = p.off.toNat := u32i_eq h1 (by omega)
  have e2 : tailroom p = ((p.size : Int) - p.len - p.off).toNat := u32i_eq (by omega) (by omega)
  have e64 : u64i (p.size - p.off) = (p.size - p.off).toNat := u64i_eq (by omega) (by omega)
  have hm : n ≤ p.size → (p.len + n) % 2 ^ 64 = p.len + n := fun h => Nat.mod_eq_of_lt (by omega)
  simp only [put, get, pull, push, reserve, u32_small hn, sint_small hn, e1, e2, e64]
  refine ⟨?_, ?_, ?_, ?_, ?_⟩
  · by_cases h : n ≤ ((p.size : Int) - p.len - p.off).toNat
    · rw [if_pos h, if_pos (by omega), hm (by omega)]
    · rw [if_neg h, if_neg (by omega)]
  · by_cases h : n ≤ p.len
    · rw [if_pos h, if_pos h]
    · rw [if_neg h, if_neg h]
  · by_cases h : n ≤ p.len
    · rw [if_pos h, if_neg (by omega)]
    · rw [if_neg h, if_pos (by omega)]
  · by_cases h : n ≤ p.off.toNat
    · rw [if_pos h, if_neg (by omega), hm (by omega)]
    · rw [if_neg h, if_pos (by omega)]
  · by_cases h0 : 0 < p.len
    · rw [if_pos h0, if_pos h0]
    · rw [if_neg h0]
      by_cases h : n ≤ ((p.size : Int) - p.len - p.off).toNat
      · rw [if_pos h, if_neg h0, if_pos (by omega)]
      · rw [if_neg h, if_neg h0, if_neg (by omega)]

/-- C11. Whatever the history and the initial contents of the buffer, the user observes exactly what
    the byte queue shows: bytes put come out of get/pull/peek in order, pushed bytes come first, and
    success or failure is as in the queue. -/
theorem C11_payload (size : Nat) (hsize : size < 2 ^ 32) (mem : Int → UInt8) (ops : List Op)
    (hs : ∀ op ∈ ops, Op.small op) :
    (execAll (fresh size mem) ops).2 = (run size ⟨0, []⟩ ops).2 := by
  have h := (execAll_refines (inv_fresh hsize mem) ops hs).2.2
  have e : abs (fresh size mem) = ⟨0, []⟩ := by simp [abs, fresh, load]
  rw [e] at h
  have h' : (fresh size mem).size = size := rfl
  rw [h'] at h
  rw [← h]

/-! ### C12 -/

/-- C12, for lengths below 2^31. Missing: lengths whose low 32 bits have the top bit set, or that do
    not fit in 32 bits; for those the claim is false, see `C12_push_escapes` and `C12_push_truncates`. -/
theorem C12_push_partial (size : Nat) (hsize : size < 2 ^ 32) (mem : Int → UInt8) (ops : List Op)
    (hs : ∀ op ∈ ops, Op.small op) (n : Nat) (hn : n < 2 ^ 31) :
    let p := (execAll (fresh size mem) ops).1
    headroom p < n → push p n = (p, .error .ENOSPC) := by
  intro p h
  have := (C10_all_or_nothing size hsize mem ops hs n hn).2.2.2.1
  rw [if_neg (by show ¬ n ≤ headroom p; omega)] at this
  exact this

/-- C12 is false: in every reachable state, aosl_psb_push with any length in [2^31, 2^32) succeeds and
    moves the data pointer in front of the buffer (unless the headroom is that large). -/
theorem C12_push_escapes (size : Nat) (hsize : size < 2 ^ 32) (mem : Int → UInt8) (ops : List Op)
    (hs : ∀ op ∈ ops, Op.small op) (n : Nat) (h31 : 2 ^ 31 ≤ n) (h32 : n < 2 ^ 32) :
    let p := (execAll (fresh size mem) ops).1
    headroom p < n → (∃ o, (push p n).2 = .ok o ∧ o < 0) ∧ (push p n).1.off < 0 := by
  obtain ⟨⟨h1, h2, h3⟩, h4, _⟩ := execAll_refines (inv_fresh hsize mem) ops hs
  generalize (execAll (fresh size mem) ops).1 = p at *
  have e1 : headroom p = p.off.toNat := u32i_eq h1 (by omega)
  have e2 : u32 n = n := Nat.mod_eq_of_lt h32
  have e3 : sint n = (n : Int) - 2 ^ 32 := by simp [sint]; omega
  intro q hq
  have hq' : p.off.toNat < n := by rw [← e1]; exact hq
  have hn : ¬ p.off < (n : Int) - 2 ^ 32 := by omega
  simp only [q, push, e2, e3, hn, if_false]
  exact ⟨⟨_, rfl, by omega⟩, by omega⟩

/-- C12 is false also through truncation of the `size_t` argument: pushing 2^32 bytes on a buffer
    without headroom reports success (and moves nothing). -/
theorem C12_push_truncates (p : Psb) (h : 0 ≤ p.off) :
    (push p (2 ^ 32)).2 = .ok p.off ∧ (push p (2 ^ 32)).1.off = p.off := by
  have : ¬ p.off < 0 := by omega
  simp [push, u32, sint, this]

/-! ### C13 -/

/-- Calls concerning ownership; buffers named in `allocUser`/`attach` belong to the user. -/
inductive OwnOp where
  | alloc (size : Nat)
  | allocUser (buf bufsz : Nat)
  | attach (p buf bufsz : Nat)
  | detach (p : Nat)
  | free (p : Nat)
  | freeList (chain : List Nat)
  deriving DecidableEq, Repr

def own (w : World) : OwnOp → World
  | .alloc n => w.alloc n
  | .allocUser b n => w.allocUser b n
  | .attach p b n => w.attach p b n
  | .detach p => w.detach p
  | .free p => w.freePsb p
  | .freeList c => w.freeList c

/-- The full claim: a user buffer (odd id) is never freed, a library buffer at most once. -/
def C13_claim : Prop := ∀ ops : List OwnOp,
  (∀ b ∈ (ops.foldl own World.init).freed, b % 2 = 0) ∧ (ops.foldl own World.init).freed.Nodup

/-- C13 is false: a user buffer attached to a library-allocated psb is freed with the psb. -/
theorem C13_attach_then_free_violates : ¬ C13_claim := by
  intro h
  have := (h [.alloc 16, .attach 0 7 32, .free 0]).1
  revert this
  decide +kernel

/-- attach is used only on psbs made by aosl_alloc_user_psb -/
def attachOk (w : World) : OwnOp → Prop
  | .attach p _ _ => ∀ o, w.psbs.lookup p = some o → o.user = true
  | _ => True

def attachesOk (w : World) : List OwnOp → Prop
  | [] => True
  | op :: ops => attachOk w op ∧ attachesOk (own w op) ops

structure OwnInv (w : World) : Prop where
  psbIds : ∀ e ∈ w.psbs, e.1 < w.nextPsb
  psbNodup : (w.psbs.map (·.1)).Nodup
  freedLib : ∀ b ∈ w.freed, b ∈ w.libBufs
  freedNodup : w.freed.Nodup
  libEven : ∀ b ∈ w.libBufs, b % 2 = 0 ∧ b < 2 * w.nextBuf
  libNodup : w.libBufs.Nodup
  /-- a library psb holds a live library buffer -/
  held : ∀ e ∈ w.psbs, e.2.user = false → (e.2.head = none ↔ e.2.size = 0) ∧
    ∀ b, e.2.head = some b → b ∈ w.libBufs ∧ b ∉ w.freed
  heldOnce : ∀ e ∈ w.psbs, ∀ e' ∈ w.psbs, e.2.user = false → e'.2.user = false →
    ∀ b, e.2.head = some b → e'.2.head = some b → e.1 = e'.1
  /-- every live library buffer is held by some psb -/
  noLeak : ∀ b ∈ w.libBufs, b ∉ w.freed → ∃ e ∈ w.psbs, e.2.user = false ∧ e.2.head = some b

theorem ownInv_init : OwnInv World.init := by
  constructor <;> simp [World.init]

theorem mem_of_lookup {l : List (Nat × Owned)} {p : Nat} {o : Owned} (h : l.lookup p = some o) :
    (p, o) ∈ l := by
  induction l with
  | nil => simp at h
  | cons e l ih =>
    obtain ⟨q, o'⟩ := e
    rw [List.lookup_cons] at h
    by_cases hq : p == q
    · simp [hq] at h; simp at hq; simp [hq, h]
    · simp [hq] at h; simp [ih h]

theorem eq_of_nodup {l : List (Nat × Owned)} (hn : (l.map (·.1)).Nodup) {p : Nat} {o o' : Owned}
    (h : (p, o) ∈ l) (h' : (p, o') ∈ l) : o = o' := by
  induction l with
  | nil => simp at h
  | cons e l ih =>
    simp only [List.map_cons, List.nodup_cons, List.mem_map, not_exists, not_and] at hn
    rcases List.mem_cons.1 h with g | g <;> rcases List.mem_cons.1 h' with g' | g'
    · rw [← g'] at g; exact (Prod.mk.inj g).2
    · subst g; exact (hn.1 (p, o') g' rfl).elim
    · subst g'; exact (hn.1 (p, o) g rfl).elim
    · exact ih hn.2 g g'

theorem mem_setPsb {w : World} {p : Nat} {o : Owned} {e : Nat × Owned}
    (h : e ∈ (w.setPsb p o).psbs) : (e = (p, o) ∧ ∃ e0 ∈ w.psbs, e0.1 = p) ∨ (e.1 ≠ p ∧ e ∈ w.psbs) := by
  simp only [World.setPsb, List.mem_map] at h
  obtain ⟨e0, h0, h1⟩ := h
  by_cases hp : e0.1 = p
  · simp [hp] at h1; exact Or.inl ⟨h1.symm, e0, h0, hp⟩
  · simp [hp] at h1; subst h1; exact Or.inr ⟨hp, h0⟩

theorem setPsb_other {w : World} {p : Nat} {o : Owned} {e : Nat × Owned}
    (h : e ∈ w.psbs) (hne : e.1 ≠ p) : e ∈ (w.setPsb p o).psbs := by
  simp only [World.setPsb, List.mem_map]
  exact ⟨e, h, by simp [hne]⟩

theorem setPsb_same {w : World} {p : Nat} {o o' : Owned} (h : (p, o') ∈ w.psbs) :
    (p, o) ∈ (w.setPsb p o).psbs := by
  simp only [World.setPsb, List.mem_map]
  exact ⟨_, h, by simp⟩

theorem setPsb_ids (w : World) (p : Nat) (o : Owned) :
    (w.setPsb p o).psbs.map (·.1) = w.psbs.map (·.1) := by
  simp only [World.setPsb, List.map_map]
  apply List.map_congr_left
  intro e _
  simp only [Function.comp]
  split <;> simp_all

theorem own_alloc {w : World} (h : OwnInv w) (n : Nat) : OwnInv (w.alloc n) := by
  unfold World.alloc
  split
  · exact h
  · have hfresh : w.nextPsb ∉ w.psbs.map (·.1) := by
      intro hm
      obtain ⟨e, he, h1⟩ := List.mem_map.1 hm
      have := h.psbIds e he
      omega
    split
    · have hnb : 2 * w.nextBuf ∉ w.libBufs := fun hm => by have := (h.libEven _ hm).2; omega
      have hnf : 2 * w.nextBuf ∉ w.freed := fun hm => hnb (h.freedLib _ hm)
      constructor
      · intro e he
        rcases List.mem_cons.1 he with rfl | he
        · exact Nat.lt_succ_self _
        · exact Nat.lt_succ_of_lt (h.psbIds e he)
      · simp only [List.map_cons, List.nodup_cons]; exact ⟨hfresh, h.psbNodup⟩
      · intro b hb; exact List.mem_cons_of_mem _ (h.freedLib b hb)
      · exact h.freedNodup
      · intro b hb
        rcases List.mem_cons.1 hb with rfl | hb
        · simp
        · have := h.libEven b hb; simp; omega
      · exact List.nodup_cons.2 ⟨hnb, h.libNodup⟩
      · intro e he hu
        rcases List.mem_cons.1 he with rfl | he
        · refine ⟨by simp; omega, ?_⟩
          intro b hb
          simp at hb
          subst hb
          exact ⟨by simp, hnf⟩
        · obtain ⟨h1, h2⟩ := h.held e he hu
          exact ⟨h1, fun b hb => ⟨List.mem_cons_of_mem _ (h2 b hb).1, (h2 b hb).2⟩⟩
      · intro e he e' he' hu hu' b hb hb'
        rcases List.mem_cons.1 he with rfl | he <;> rcases List.mem_cons.1 he' with rfl | he'
        · rfl
        · simp at hb; subst hb
          exact absurd ((h.held e' he' hu').2 _ hb').1 hnb
        · simp at hb'; subst hb'
          exact absurd ((h.held e he hu).2 _ hb).1 hnb
        · exact h.heldOnce e he e' he' hu hu' b hb hb'
      · intro b hb hnf'
        rcases List.mem_cons.1 hb with rfl | hb
        · exact ⟨_, List.mem_cons_self, rfl, rfl⟩
        · obtain ⟨e, he, h1⟩ := h.noLeak b hb hnf'
          exact ⟨e, List.mem_cons_of_mem _ he, h1⟩
    · constructor
      · intro e he
        rcases List.mem_cons.1 he with rfl | he
        · exact Nat.lt_succ_self _
        · exact Nat.lt_succ_of_lt (h.psbIds e he)
      · simp only [List.map_cons, List.nodup_cons]; exact ⟨hfresh, h.psbNodup⟩
      · exact h.freedLib
      · exact h.freedNodup
      · exact h.libEven
      · exact h.libNodup
      · intro e he hu
        rcases List.mem_cons.1 he with rfl | he
        · simp
        · exact h.held e he hu
      · intro e he e' he' hu hu' b hb hb'
        rcases List.mem_cons.1 he with rfl | he
        · simp at hb
        · rcases List.mem_cons.1 he' with rfl | he'
          · simp at hb'
          · exact h.heldOnce e he e' he' hu hu' b hb hb'
      · intro b hb hnf'
        obtain ⟨e, he, h1⟩ := h.noLeak b hb hnf'
        exact ⟨e, List.mem_cons_of_mem _ he, h1⟩

theorem own_allocUser {w : World} (h : OwnInv w) (b n : Nat) : OwnInv (w.allocUser b n) := by
  have hfresh : w.nextPsb ∉ w.psbs.map (·.1) := by
    intro hm
    obtain ⟨e, he, h1⟩ := List.mem_map.1 hm
    have := h.psbIds e he
    omega
  unfold World.allocUser
  constructor
  · intro e he
    rcases List.mem_cons.1 he with rfl | he
    · exact Nat.lt_succ_self _
    · exact Nat.lt_succ_of_lt (h.psbIds e he)
  · simp only [List.map_cons, List.nodup_cons]; exact ⟨hfresh, h.psbNodup⟩
  · exact h.freedLib
  · exact h.freedNodup
  · exact h.libEven
  · exact h.libNodup
  · intro e he hu
    rcases List.mem_cons.1 he with rfl | he
    · simp at hu
    · exact h.held e he hu
  · intro e he e' he' hu hu' b hb hb'
    rcases List.mem_cons.1 he with rfl | he
    · simp at hu
    · rcases List.mem_cons.1 he' with rfl | he'
      · simp at hu'
      · exact h.heldOnce e he e' he' hu hu' b hb hb'
  · intro b hb hnf'
    obtain ⟨e, he, h1⟩ := h.noLeak b hb hnf'
    exact ⟨e, List.mem_cons_of_mem _ he, h1⟩

theorem own_attach {w : World} (h : OwnInv w) (p b n : Nat) (hok : attachOk w (.attach p b n)) :
    OwnInv (w.attach p b n) := by
  unfold World.attach
  cases hl : w.psbs.lookup p with
  | none => exact h
  | some o =>
    have hu : o.user = true := hok o hl
    have hm := mem_of_lookup hl
    simp only [hu, and_false, if_false, Bool.true_eq_false]
    generalize ho' : ({ o with head := if n > 0 then some (2 * b + 1) else none, size := n } : Owned) = o'
    have hu' : o'.user = true := by rw [← ho']; exact hu
    have keep : ∀ e ∈ (w.setPsb p o').psbs, e.2.user = false → e ∈ w.psbs := by
      intro e he hue
      rcases mem_setPsb he with ⟨rfl, _⟩ | ⟨_, h1⟩
      · simp [hu'] at hue
      · exact h1
    have ho'' : ({ head := if n > 0 then some (2 * b + 1) else none, size := n, user := true } : Owned) = o' := by
      rw [← ho', ← hu]
    rw [ho'']
    constructor
    · intro e he
      have := setPsb_ids w p o'
      have h2 : e.1 ∈ w.psbs.map (·.1) := by rw [← this]; exact List.mem_map.2 ⟨e, he, rfl⟩
      obtain ⟨e0, he0, h3⟩ := List.mem_map.1 h2
      rw [← h3]; exact h.psbIds e0 he0
    · rw [setPsb_ids]; exact h.psbNodup
    · exact h.freedLib
    · exact h.freedNodup
    · exact h.libEven
    · exact h.libNodup
    · intro e he hue; exact h.held e (keep e he hue) hue
    · intro e he e' he' hue hue'; exact h.heldOnce e (keep e he hue) e' (keep e' he' hue') hue hue'
    · intro c hc hnf
      obtain ⟨e, he, h1, h2⟩ := h.noLeak c hc hnf
      refine ⟨e, setPsb_other he ?_, h1, h2⟩
      intro e1
      have : e = (p, e.2) := by rw [← e1]
      rw [this] at he
      have := eq_of_nodup h.psbNodup he hm
      rw [this, hu] at h1
      simp at h1

/-- Releasing the buffer of a library psb and making the psb hold nothing. -/
theorem own_release {w : World} (h : OwnInv w) {p : Nat} {o : Owned} (hm : (p, o) ∈ w.psbs)
    (hu : o.user = false) : OwnInv ((w.free o.head).setPsb p { o with head := none, size := 0 }) := by
  have hps : (w.free o.head).psbs = w.psbs := by unfold World.free; split <;> rfl
  have hlib : (w.free o.head).libBufs = w.libBufs := by unfold World.free; split <;> rfl
  have hnp : (w.free o.head).nextPsb = w.nextPsb := by unfold World.free; split <;> rfl
  have hnb : (w.free o.head).nextBuf = w.nextBuf := by unfold World.free; split <;> rfl
  have hfr : (w.free o.head).freed = o.head.toList ++ w.freed := by
    unfold World.free; split <;> simp_all
  obtain ⟨hh1, hh2⟩ := h.held _ hm hu
  generalize hw' : w.free o.head = w' at *
  constructor
  · intro e he
    have := setPsb_ids w' p { o with head := none, size := 0 }
    have h2 : e.1 ∈ w'.psbs.map (·.1) := by rw [← this]; exact List.mem_map.2 ⟨e, he, rfl⟩
    rw [hps] at h2
    obtain ⟨e0, he0, h3⟩ := List.mem_map.1 h2
    have := h.psbIds e0 he0
    show e.1 < w'.nextPsb
    omega
  · rw [setPsb_ids, hps]; exact h.psbNodup
  · intro b hb
    have hb' : b ∈ w'.freed := hb
    show b ∈ w'.libBufs
    rw [hfr] at hb'
    rw [hlib]
    rcases List.mem_append.1 hb' with hb' | hb'
    · exact (hh2 b (by simpa using hb')).1
    · exact h.freedLib b hb'
  · show w'.freed.Nodup
    rw [hfr]
    cases hhd : o.head with
    | none => simpa using h.freedNodup
    | some b => simpa using ⟨(hh2 b hhd).2, h.freedNodup⟩
  · intro b hb
    have hb' : b ∈ w'.libBufs := hb
    rw [hlib] at hb'
    have := h.libEven b hb'
    show b % 2 = 0 ∧ b < 2 * w'.nextBuf
    rw [hnb]; exact this
  · show w'.libBufs.Nodup
    rw [hlib]; exact h.libNodup
  · intro e he hue
    rcases mem_setPsb he with ⟨rfl, _⟩ | ⟨hne, he⟩
    · simp
    · rw [hps] at he
      obtain ⟨g1, g2⟩ := h.held e he hue
      refine ⟨g1, fun b hb => ⟨?_, ?_⟩⟩
      · show b ∈ w'.libBufs
        rw [hlib]; exact (g2 b hb).1
      · show b ∉ w'.freed
        rw [hfr]
        intro hm'
        rcases List.mem_append.1 hm' with hm' | hm'
        · exact hne (h.heldOnce e he _ hm hue hu b hb (by simpa using hm'))
        · exact (g2 b hb).2 hm'
  · intro e he e' he' hue hue' b hb hb'
    rcases mem_setPsb he with ⟨rfl, _⟩ | ⟨hne, he⟩
    · simp at hb
    · rcases mem_setPsb he' with ⟨rfl, _⟩ | ⟨hne', he'⟩
      · simp at hb'
      · rw [hps] at he he'
        exact h.heldOnce e he e' he' hue hue' b hb hb'
  · intro b hb hnf
    have hb' : b ∈ w'.libBufs := hb
    have hnf' : b ∉ w'.freed := hnf
    rw [hlib] at hb'
    rw [hfr] at hnf'
    obtain ⟨e, he, h1, h2⟩ := h.noLeak b hb' (fun hx => hnf' (List.mem_append_right _ hx))
    refine ⟨e, setPsb_other (by rw [hps]; exact he) ?_, h1, h2⟩
    intro e1
    have : e = (p, e.2) := by rw [← e1]
    rw [this] at he
    have := eq_of_nodup h.psbNodup he hm
    rw [this] at h2
    exact hnf' (List.mem_append_left _ (by simp [h2]))

theorem own_userSet {w : World} (h : OwnInv w) {p : Nat} {o : Owned} (hm : (p, o) ∈ w.psbs)
    (hu : o.user = true) (o' : Owned) (hu' : o'.user = true) : OwnInv (w.setPsb p o') := by
  have keep : ∀ e ∈ (w.setPsb p o').psbs, e.2.user = false → e ∈ w.psbs := by
    intro e he hue
    rcases mem_setPsb he with ⟨rfl, _⟩ | ⟨_, h1⟩
    · simp [hu'] at hue
    · exact h1
  constructor
  · intro e he
    have := setPsb_ids w p o'
    have h2 : e.1 ∈ w.psbs.map (·.1) := by rw [← this]; exact List.mem_map.2 ⟨e, he, rfl⟩
    obtain ⟨e0, he0, h3⟩ := List.mem_map.1 h2
    rw [← h3]; exact h.psbIds e0 he0
  · rw [setPsb_ids]; exact h.psbNodup
  · exact h.freedLib
  · exact h.freedNodup
  · exact h.libEven
  · exact h.libNodup
  · intro e he hue; exact h.held e (keep e he hue) hue
  · intro e he e' he' hue hue'; exact h.heldOnce e (keep e he hue) e' (keep e' he' hue') hue hue'
  · intro c hc hnf
    obtain ⟨e, he, h1, h2⟩ := h.noLeak c hc hnf
    refine ⟨e, setPsb_other he ?_, h1, h2⟩
    intro e1
    have : e = (p, e.2) := by rw [← e1]
    rw [this] at he
    have := eq_of_nodup h.psbNodup he hm
    rw [this, hu] at h1
    simp at h1

theorem own_detach {w : World} (h : OwnInv w) (p : Nat) : OwnInv (w.detach p) := by
  unfold World.detach
  cases hl : w.psbs.lookup p with
  | none => exact h
  | some o =>
    have hm := mem_of_lookup hl
    simp only []
    split
    · cases hu : o.user with
      | false => simpa [hu] using own_release h hm hu
      | true =>
        simp only [Bool.true_eq_false, if_false]
        exact own_userSet h hm hu _ rfl
    · exact h

/-- Forgetting a psb that holds no live library buffer. -/
theorem own_drop {w : World} (h : OwnInv w) (p : Nat)
    (hp : ∀ o, (p, o) ∈ w.psbs → o.user = false → o.head = none) :
    OwnInv { w with psbs := w.psbs.filter fun e => e.1 ≠ p } := by
  constructor
  · intro e he; exact h.psbIds e (List.mem_filter.1 he).1
  · exact h.psbNodup.sublist (List.Sublist.map _ List.filter_sublist)
  · exact h.freedLib
  · exact h.freedNodup
  · exact h.libEven
  · exact h.libNodup
  · intro e he hue; exact h.held e (List.mem_filter.1 he).1 hue
  · intro e he e' he'; exact h.heldOnce e (List.mem_filter.1 he).1 e' (List.mem_filter.1 he').1
  · intro b hb hnf
    obtain ⟨e, he, h1, h2⟩ := h.noLeak b hb hnf
    refine ⟨e, List.mem_filter.2 ⟨he, ?_⟩, h1, h2⟩
    simp
    intro e1
    have : e = (p, e.2) := by rw [← e1]
    rw [this] at he
    rw [hp e.2 he h1] at h2
    simp at h2

theorem filter_setPsb (w : World) (p : Nat) (o : Owned) :
    ((w.setPsb p o).psbs.filter fun e => e.1 ≠ p) = w.psbs.filter fun e => e.1 ≠ p := by
  simp only [World.setPsb]
  induction w.psbs with
  | nil => rfl
  | cons e l ih =>
    simp only [List.map_cons]
    by_cases h : e.1 = p
    · simp only [h, if_true]
      rw [List.filter_cons_of_neg (by simp), List.filter_cons_of_neg (by simp [h])]
      exact ih
    · simp only [h, if_false]
      rw [List.filter_cons_of_pos (by simp [h]), List.filter_cons_of_pos (by simp [h]), ih]

theorem own_freePsb {w : World} (h : OwnInv w) (p : Nat) : OwnInv (w.freePsb p) := by
  unfold World.freePsb
  cases hl : w.psbs.lookup p with
  | none => exact h
  | some o =>
    have hm := mem_of_lookup hl
    have cond : ∀ (hu : o.user = false), (o.user = false ∧ o.head ≠ none) ∨ o.head = none := by
      intro hu
      by_cases hh : o.head = none
      · exact Or.inr hh
      · exact Or.inl ⟨hu, hh⟩
    cases hu : o.user with
    | false =>
      have hrel := own_release h hm hu
      have hd := own_drop hrel p (by
        intro o' ho' _
        rcases mem_setPsb ho' with ⟨e, _⟩ | ⟨hne, _⟩
        · rw [(Prod.mk.inj e).2]
        · simp at hne)
      rw [filter_setPsb] at hd
      by_cases hh : o.head = none
      · simp only [hh, ne_eq, not_true_eq_false, and_false, if_false]
        simp only [hh, World.free, World.setPsb] at hd
        exact hd
      · have hc : o.user = false ∧ o.head ≠ none := ⟨hu, hh⟩
        simp only [if_pos hc]
        exact hd
    | true =>
      have hc : ¬ (o.user = false ∧ o.head ≠ none) := by simp [hu]
      simp only [if_neg hc]
      apply own_drop h
      intro o' ho' hu'
      rw [eq_of_nodup h.psbNodup ho' hm, hu] at hu'
      simp at hu'

theorem own_inv {w : World} (h : OwnInv w) (op : OwnOp) (hok : attachOk w op) : OwnInv (own w op) := by
  cases op with
  | alloc n => exact own_alloc h n
  | allocUser b n => exact own_allocUser h b n
  | attach p b n => exact own_attach h p b n hok
  | detach p => exact own_detach h p
  | free p => exact own_freePsb h p
  | freeList c =>
    show OwnInv (w.freeList c)
    unfold World.freeList
    clear hok
    induction c generalizing w with
    | nil => exact h
    | cons p c ih => exact ih (own_freePsb h p)

/-- C13, for histories in which aosl_psb_attach_buf is only used on psbs from aosl_alloc_user_psb.
    User buffers are never freed, no library buffer is freed twice, and a library buffer no psb holds
    any more has been freed (so it is freed exactly once by the time all psbs are gone). Missing:
    attaching to a library-allocated psb, where the claim is false
    (`C13_attach_then_free_violates`). -/
theorem C13_ownership_partial (ops : List OwnOp) (hok : attachesOk World.init ops) :
    let w := ops.foldl own World.init
    (∀ b ∈ w.freed, b % 2 = 0 ∧ b ∈ w.libBufs) ∧ w.freed.Nodup ∧
    (∀ b ∈ w.libBufs, (∀ e ∈ w.psbs, e.2.head ≠ some b) → w.freed.count b = 1) := by
  have hinv : OwnInv (ops.foldl own World.init) := by
    have : ∀ (ops : List OwnOp) (w : World), OwnInv w → attachesOk w ops → OwnInv (ops.foldl own w) := by
      intro ops
      induction ops with
      | nil => intro w h _; exact h
      | cons op ops ih => intro w h ho; exact ih _ (own_inv h op ho.1) ho.2
    exact this ops _ ownInv_init hok
  refine ⟨fun b hb => ⟨(hinv.libEven b (hinv.freedLib b hb)).1, hinv.freedLib b hb⟩, hinv.freedNodup, ?_⟩
  intro b hb hno
  by_cases hf : b ∈ (ops.foldl own World.init).freed
  · have h1 := List.nodup_iff_count.1 hinv.freedNodup b
    have h2 := List.count_pos_iff.2 hf
    omega
  · obtain ⟨e, he, _, h2⟩ := hinv.noLeak b hb hf
    exact absurd h2 (hno e he)

theorem lookup_map (l : List (Nat × Owned)) (p : Nat) (o o' : Owned) (h : l.lookup p = some o) :
    (l.map fun e => if e.1 = p then (p, o') else e).lookup p = some o' := by
  induction l with
  | nil => simp at h
  | cons e l ih =>
    obtain ⟨k, x⟩ := e
    by_cases hk : k = p
    · subst hk; simp
    · have hb : (p == k) = false := by simp [Ne.symm hk]
      simp only [List.lookup_cons, hb] at h
      simp only [List.map_cons, if_neg hk, List.lookup_cons, hb]
      exact ih h

/-- C13, what each call does to the psb it concerns. A psb for up to 8 MiB gets a library buffer of exactly its size that no psb
    had before (none for size 0), larger ones are refused; aosl_alloc_user_psb and aosl_psb_attach_buf install exactly the user's buffer;
    after aosl_psb_detach_buf the psb has no buffer, and a library buffer has been freed while a user's has not. -/
theorem C13_effects (w : World) (hw : OwnInv w) (n p buf : Nat) (o : Owned) (hp : w.psbs.lookup p = some o) :
    (n ≤ 8388608 → ∃ o', (w.alloc n).psbs.lookup w.nextPsb = some o' ∧ o'.user = false ∧ o'.size = n ∧
      (n = 0 → o'.head = none) ∧ (0 < n → ∃ b, o'.head = some b ∧ b ∈ (w.alloc n).libBufs ∧ b ∉ w.libBufs)) ∧
    (8388608 < n → w.alloc n = w) ∧
    (w.allocUser buf n).psbs.lookup w.nextPsb = some ⟨if 0 < n then some (2 * buf + 1) else none, n, true⟩ ∧
    (w.attach p buf n).psbs.lookup p = some ⟨if 0 < n then some (2 * buf + 1) else none, n, o.user⟩ ∧
    (0 < o.size → (w.detach p).psbs.lookup p = some ⟨none, 0, o.user⟩) ∧
    (o.user = true → (w.detach p).freed = w.freed ∧ (w.attach p buf n).freed = w.freed) ∧
    (o.user = false → ∀ b, o.head = some b → (w.detach p).freed = b :: w.freed ∧ (w.attach p buf n).freed = b :: w.freed) := by
  refine ⟨fun hn => ?_, fun hn => ?_, ?_, ?_, fun hs => ?_, fun hu => ?_, fun hu b hb => ?_⟩
  · have hmax : ¬ n > MAX_SPB_SIZE := by simp only [MAX_SPB_SIZE]; omega
    by_cases h0 : n > 0
    · refine ⟨⟨some (2 * w.nextBuf), n, false⟩, ?_, rfl, rfl, fun h => by omega, fun _ => ⟨2 * w.nextBuf, rfl, ?_, fun h => ?_⟩⟩
      · simp [World.alloc, if_neg hmax, if_pos h0]
      · simp [World.alloc, if_neg hmax, if_pos h0]
      · have := (hw.libEven _ h).2; omega
    · refine ⟨⟨none, 0, false⟩, ?_, rfl, ?_, fun _ => rfl, fun h => absurd h h0⟩
      · simp [World.alloc, if_neg hmax, if_neg h0]
      · simp only; omega
  · simp only [World.alloc]; rw [if_pos (by simp only [MAX_SPB_SIZE]; omega)]
  · simp [World.allocUser]
  · simp only [World.attach, hp, World.setPsb]
    by_cases hc : o.size > 0 ∧ o.user = false
    · rw [if_pos hc]
      cases o.head <;> exact lookup_map _ _ _ _ hp
    · rw [if_neg hc]
      exact lookup_map _ _ _ _ hp
  · simp only [World.detach, hp, if_pos hs, World.setPsb]
    split
    · cases o.head <;> exact lookup_map _ _ _ _ hp
    · exact lookup_map _ _ _ _ hp
  · simp only [World.detach, World.attach, hp, hu, World.setPsb]
    constructor
    · split <;> simp
    · simp
  · have hm := mem_of_lookup hp
    have hs : o.size > 0 := by
      have := (hw.held _ hm hu).1
      rw [hb] at this
      simp only [reduceCtorEq, false_iff] at this
      omega
    simp [World.detach, World.attach, hp, hu, World.setPsb, hs, hb, World.free]

/-- the hypotheses of `C13_effects` are met after any history, e.g. by a library psb with a buffer -/
example : (own (own World.init (.alloc 16)) (.allocUser 3 8)).psbs.lookup 0 = some ⟨some 0, 16, false⟩ := by decide +kernel

/-! ### C14 -/

/-- C14. The total length of a chain is the sum of the data lengths (as long as that fits a size_t);
    reset empties every segment, so the total is zero, and keeps number, size and bytes. -/
theorem C14_chain (c : List Psb) (hfit : (c.map (·.len)).sum < 2 ^ 64) :
    totalLen c = (c.map (·.len)).sum ∧ totalLen (reset c) = 0 ∧
    (∀ p ∈ reset c, p.len = 0 ∧ headroom p = 0) ∧
    (reset c).map (fun p => (p.size, p.mem)) = c.map (fun p => (p.size, p.mem)) := by
  have key : ∀ (c : List Psb) (t : Nat), t + (c.map (·.len)).sum < 2 ^ 64 →
      c.foldl (fun total p => (total + p.len) % 2 ^ 64) t = t + (c.map (·.len)).sum := by
    intro c
    induction c with
    | nil => intro t ht; simp
    | cons p c ih =>
      intro t ht
      simp only [List.map_cons, List.sum_cons] at ht
      simp only [List.foldl_cons, List.map_cons, List.sum_cons]
      rw [Nat.mod_eq_of_lt (by omega), ih _ (by omega)]
      omega
  refine ⟨by simpa [totalLen] using key c 0 (by omega), ?_, ?_, ?_⟩
  · have hz : ((reset c).map (·.len)).sum = 0 := by
      unfold reset
      clear hfit
      induction c with
      | nil => rfl
      | cons p c ih => simp only [List.map_cons, List.sum_cons, resetOne, Nat.zero_add]; exact ih
    have := key (reset c) 0 (by omega)
    rw [hz] at this
    simpa [totalLen] using this
  · intro p hp
    obtain ⟨q, _, rfl⟩ := List.mem_map.1 hp
    simp [resetOne, headroom, u32i]
  · simp [reset, resetOne, Function.comp_def]

/-! ## Non-vacuity -/

def demoOps : List Op := [.reserve 4, .put [1, 2, 3], .push [9, 8], .get 1, .put [4, 5, 6, 7], .put [4, 5], .peek 4, .pull 3, .get 2]

example : (execAll (fresh 12 (fun _ => 0xAA)) demoOps).2 =
    [.ok, .ok, .ok, .bytes [9], .ok, .fail, .bytes [8, 1, 2, 3], .ok, .bytes [3, 4]] := by decide +kernel
example : ∀ op ∈ demoOps, Op.small op := by simp [demoOps, Op.small]
example : (push (fresh 16 (fun _ => 0)) (2 ^ 31)).1.off = -(2 ^ 31) := by decide +kernel
example : attachesOk World.init [.alloc 16, .allocUser 3 8, .attach 1 4 8, .detach 0, .freeList [0, 1]] := by
  simp [attachesOk, attachOk, own, World.init, World.alloc, World.allocUser, MAX_SPB_SIZE]
example : (([.alloc 16, .allocUser 3 8, .attach 1 4 8, .detach 0, .freeList [0, 1]] : List OwnOp).foldl own World.init).freed = [0] := by
  decide +kernel
example : totalLen [⟨0, 5, 8, fun _ => 0⟩, ⟨2, 7, 16, fun _ => 0⟩] = 12 := by decide +kernel

end Verif.Psb
