import Verif.OnQ
/-! Properties C72 (user arguments reach the callbacks) and C75 (asynchronous resolve). -/
namespace Verif.OnQ

/-! ## C72 -/

/-- number of internal arguments of each function -/
def overhead : Fn → Nat
  | .addFd => 8 | .listen => 5 | .addDgram => 5 | .addStream => 6 | .connect => 8 | .createTimer => 4 | .setTimer => 5

/-- C72 (all functions but connect). On a valid queue, whatever the caller's stack contains and whether the
    target is the caller's own queue or another one, the user arguments (at most 64 together with the
    internal ones) reach the target function unchanged, in number and order, and so do the internal ones.
    Otherwise an error is returned and nothing runs. -/
theorem C72_user_args_partial (f : Fn) (hf : f ≠ .connect) (same : Bool) (junk : Word) (fixed user : List Word)
    (hfix : fixed.length = overhead f) :
    onQ f true same junk fixed user =
      if user.length + overhead f ≤ 64 then .delivered fixed user else .e2big := by
  have key : ∀ l : Layout, l.nfixed = overhead f → l.slot = l.nfixed → l.passed = l.nfixed → l.skip = l.nfixed → layout f = l →
      onQ f true same junk fixed user = if user.length + overhead f ≤ 64 then .delivered fixed user else .e2big := by
    intro l h1 h2 h3 h4 hl
    simp only [onQ, hl, ARGC_MAX]
    by_cases hc : user.length + overhead f ≤ 64
    · rw [if_pos hc, if_neg (by omega), if_neg (by simp), if_neg (by omega)]
      have hb : build l junk fixed user = fixed ++ user := by simp [build, h2]
      have hlen : (fixed ++ user).length = l.passed + user.length := by simp [hfix, h3, h1]
      have hm : (if same = true then build l junk fixed user else (build l junk fixed user).take (l.passed + user.length)) = fixed ++ user := by
        rw [hb, ← hlen, List.take_length]; simp
      rw [hm]
      have hn : (BitVec.ofNat 64 (l.passed + user.length) - BitVec.ofNat 64 l.skip).toNat = user.length := by
        rw [BitVec.toNat_sub, BitVec.toNat_ofNat, BitVec.toNat_ofNat]
        omega
      simp only [target, hn]
      rw [if_pos (by rw [hlen]; omega)]
      have e1 : l.nfixed = fixed.length := by omega
      have e2 : l.skip = fixed.length := by omega
      rw [e1, e2]
      simp
    · rw [if_neg hc]
      by_cases h5 : user.length > 64
      · rw [if_pos h5]
      · rw [if_neg h5, if_neg (by simp), if_pos (by omega)]
  cases f with
  | connect => exact absurd rfl hf
  | addFd => exact key _ rfl rfl rfl rfl rfl
  | listen => exact key _ rfl rfl rfl rfl rfl
  | addDgram => exact key _ rfl rfl rfl rfl rfl
  | addStream => exact key _ rfl rfl rfl rfl rfl
  | createTimer => exact key _ rfl rfl rfl rfl rfl
  | setTimer => exact key _ rfl rfl rfl rfl rfl

/-- an invalid queue is reported and nothing runs -/
theorem C72_invalid_queue (f : Fn) (same : Bool) (junk : Word) (fixed user : List Word) :
    onQ f false same junk fixed user = .e2big ∨ onQ f false same junk fixed user = .einval := by
  simp only [onQ]
  split
  · exact .inl rfl
  · exact .inr rfl

example : onQ .listen true false 99 [1, 2, 3, 4, 5] [10, 20] = .delivered [1, 2, 3, 4, 5] [10, 20] := by decide +kernel

/-- C72 (violation). aosl_mpq_connect_on_q: with at least one user argument, the last one is lost. -/
theorem C72_connect_loses_last (same : Bool) (junk : Word) (fixed user : List Word) (hfix : fixed.length = 8)
    (h1 : 0 < user.length) (h2 : user.length ≤ 56) :
    onQ .connect true same junk fixed user = .delivered fixed user.dropLast := by
  have h3 : ¬ user.length > ARGC_MAX := by simp only [ARGC_MAX]; omega
  have h4 : ¬ (8 + user.length > ARGC_MAX) := by simp only [ARGC_MAX]; omega
  simp only [onQ, layout, h3, h4, if_false, Bool.true_eq_false]
  have hb : build ⟨8, 9, 8, 9⟩ junk fixed user = fixed ++ [junk] ++ user := by simp [build]
  have hn : (BitVec.ofNat 64 (8 + user.length) - BitVec.ofNat 64 9).toNat = user.length - 1 := by
    rw [BitVec.toNat_sub, BitVec.toNat_ofNat, BitVec.toNat_ofNat]
    omega
  have hl : fixed ++ [junk] ++ user = fixed ++ junk :: user := by simp
  simp only [target, hn, hb, hl]
  cases same with
  | true =>
    rw [if_pos (by simp; omega)]
    have e2 : (fixed ++ junk :: user).drop 9 = user := by
      rw [List.drop_append, List.drop_of_length_le (by omega)]; simp [hfix]
    have e1 : (fixed ++ junk :: user).take 8 = fixed := by rw [← hfix]; simp
    simp only [if_true, e1, e2, List.dropLast_eq_take]
  | false =>
    rw [if_pos (by simp; omega)]
    have e1 : ((fixed ++ junk :: user).take (8 + user.length)).take 8 = fixed := by
      rw [List.take_take, Nat.min_eq_left (by omega), ← hfix]; simp
    have e2 : ((fixed ++ junk :: user).take (8 + user.length)).drop 9 = user.take (user.length - 1) := by
      rw [List.drop_take]
      have : (fixed ++ junk :: user).drop 9 = user := by
        rw [List.drop_append, List.drop_of_length_le (by omega)]; simp [hfix]
      rw [this]; congr 1; omega
    simp only [Bool.false_eq_true, if_false, e1, e2, List.dropLast_eq_take, List.take_take, Nat.min_self]

/-- C72 (violation). aosl_mpq_connect_on_q without user arguments: the count wraps around and the target
    function reads beyond the argument array. -/
theorem C72_connect_without_args_ub (same : Bool) (junk : Word) (fixed : List Word) (hfix : fixed.length = 8) :
    onQ .connect true same junk fixed [] = .ub := by
  have h3 : ¬ (0 > ARGC_MAX) := by simp only [ARGC_MAX]; omega
  have h4 : ¬ (8 + 0 > ARGC_MAX) := by simp only [ARGC_MAX]; omega
  have e : (BitVec.ofNat 64 (8 + 0) - BitVec.ofNat 64 9).toNat = 2 ^ 64 - 1 := by decide
  simp only [onQ, layout, List.length_nil, h3, h4, if_false, Bool.true_eq_false, target, e]
  rw [if_neg]
  have : (build ⟨8, 9, 8, 9⟩ junk fixed []).length = 9 := by simp [build, hfix]
  cases same <;> simp [this]

example : onQ .connect true false 0 [1, 2, 3, 4, 5, 6, 7, 8] [10, 20] = .delivered [1, 2, 3, 4, 5, 6, 7, 8] [10] := by
  decide +kernel

/-! ## C75 -/

theorem storeLoop_spec (port : BitVec 16) (type prot cap : Nat) (l : List Nat) :
    ∀ (count : Nat) (mem : Nat → Info), count ≤ cap →
    (storeLoop port type prot cap l count mem).1 = min (count + l.length) cap ∧
    (∀ j, (storeLoop port type prot cap l count mem).2 j =
      if h : count ≤ j ∧ j < min (count + l.length) cap then ⟨l[j - count]'(by omega), port, type, prot⟩ else mem j) := by
  induction l with
  | nil =>
    intro count mem hc
    refine ⟨by simp [storeLoop]; omega, ?_⟩
    intro j
    rw [dif_neg (by simp; omega)]
    rfl
  | cons a l ih =>
    intro count mem hc
    simp only [storeLoop]
    by_cases h : count < cap
    · rw [if_pos h]
      obtain ⟨i1, i2⟩ := ih (count + 1) (fun j => if j = count then ⟨a, port, type, prot⟩ else mem j) (by omega)
      refine ⟨by rw [i1]; simp; omega, ?_⟩
      intro j
      rw [i2]
      by_cases hj : j = count
      · subst hj
        rw [dif_neg (by omega), dif_pos (by simp; omega)]
        simp
      · by_cases hin : count + 1 ≤ j ∧ j < min (count + 1 + l.length) cap
        · rw [dif_pos hin, dif_pos (by simp; omega)]
          have : j - count = (j - (count + 1)) + 1 := by omega
          simp [this]
        · rw [dif_neg hin, dif_neg (by simp; omega)]
          simp [hj]
    · rw [if_neg h]
      refine ⟨by simp; omega, ?_⟩
      intro j
      rw [dif_neg (by omega)]

/-- C75. A resolve request that is accepted (returns 0) invokes the requester's function exactly once, with
    the host, the number of addresses and the address array followed by the user's arguments, and free-only
    exactly when the requester's queue no longer accepts it; a request that is refused never invokes it and
    stores nothing. The number of addresses is at most `addr_count`, and is the number of answers when
    these are at most 8 and fit; exactly that many cells are written, with the answers in order and the
    requested port. -/
theorem C75_resolve_replies_once (r : Req) (e : Env) (mem : Nat → Info)
    (hfound : e.rescnt ≤ e.found.length) :
    let res := resolveAsync r e mem
    let n := min (min e.rescnt.toNat 8) (r.addrCount.toNat % 2 ^ 32)
    (res.1 = .ok ↔ r.user.length ≤ 55 ∧ e.poolOk = true) ∧
    (res.1 = .ok → res.2.1 = [⟨!e.replyOk, [r.host, BitVec.ofNat 64 n, r.addrs] ++ r.user⟩] ∧
      n ≤ r.addrCount.toNat ∧
      (∀ j, (h : j < n) → res.2.2 j = ⟨e.found[j]'(by omega), r.port, r.type, r.prot⟩) ∧
      (∀ j, n ≤ j → res.2.2 j = mem j)) ∧
    (res.1 ≠ .ok → res.2.1 = [] ∧ res.2.2 = mem) := by
  intro res n
  have hres : res = resolveAsync r e mem := rfl
  unfold resolveAsync at hres
  by_cases h1 : r.user.length > 55
  · have hr : res.1 ≠ .ok ∧ res.2.1 = [] ∧ res.2.2 = mem := by
      rw [hres]; dsimp only [ARGC_MAX]
      by_cases h : r.user.length > 64
      · rw [if_pos h]; exact ⟨by simp, rfl, rfl⟩
      · rw [if_neg h, if_pos (by omega)]; exact ⟨by simp, rfl, rfl⟩
    refine ⟨⟨fun h => absurd h hr.1, fun h => by omega⟩, fun h => absurd h hr.1, fun _ => hr.2⟩
  · dsimp only [ARGC_MAX] at hres
    rw [if_neg (by omega), if_neg (by omega)] at hres
    cases hp : e.poolOk with
    | false =>
      rw [if_pos hp] at hres
      rw [hres]
      exact ⟨by simp, by simp, fun _ => ⟨rfl, rfl⟩⟩
    | true =>
      rw [if_neg (by simp [hp])] at hres
      have hcap : (r.addrCount.setWidth 32).toNat = r.addrCount.toNat % 2 ^ 32 := by simp
      have hrs : (resolveHost e.rescnt e.found r.port r.type r.prot r.addrCount mem).1 = n ∧
          (∀ j, (h : j < n) → (resolveHost e.rescnt e.found r.port r.type r.prot r.addrCount mem).2 j = ⟨e.found[j]'(by omega), r.port, r.type, r.prot⟩) ∧
          (∀ j, n ≤ j → (resolveHost e.rescnt e.found r.port r.type r.prot r.addrCount mem).2 j = mem j) := by
        unfold resolveHost
        by_cases hpos : e.rescnt > 0
        · rw [if_pos hpos]
          obtain ⟨s1, s2⟩ := storeLoop_spec r.port r.type r.prot (r.addrCount.setWidth 32).toNat
            (e.found.take (min e.rescnt.toNat MAX_DNS_RES_CNT)) 0 mem (by omega)
          have hlen : (e.found.take (min e.rescnt.toNat MAX_DNS_RES_CNT)).length = min e.rescnt.toNat 8 := by
            simp [MAX_DNS_RES_CNT]; omega
          have hn : min (0 + (e.found.take (min e.rescnt.toNat MAX_DNS_RES_CNT)).length) (r.addrCount.setWidth 32).toNat = n := by
            rw [hlen, hcap]; simp [n]
          refine ⟨by rw [s1, hn], ?_, ?_⟩
          · intro j hj
            rw [s2, dif_pos ⟨by omega, by rw [hn]; exact hj⟩]
            simp
          · intro j hj
            rw [s2, dif_neg (by rw [hn]; omega)]
        · rw [if_neg hpos]
          have : n = 0 := by simp [n]; omega
          refine ⟨this.symm, ?_, fun _ _ => rfl⟩
          intro j hj; omega
      have hok : res.1 = .ok := by rw [hres]
      refine ⟨⟨fun _ => ⟨by omega, rfl⟩, fun _ => hok⟩, ?_, fun h => absurd hok h⟩
      intro _
      refine ⟨?_, ?_, ?_, ?_⟩
      · rw [hres]
        dsimp only
        rw [hrs.1]
        have : decide (3 + r.user.length ≤ 64) = true := by simp; omega
        rw [this, Bool.and_true]
      · have : r.addrCount.toNat % 2 ^ 32 ≤ r.addrCount.toNat := Nat.mod_le _ _
        simp only [n]; omega
      · rw [hres]; exact hrs.2.1
      · rw [hres]; exact hrs.2.2

/-- three answers, room for two, requester gone: one free-only reply with two addresses -/
example :
    let r : Req := ⟨100, 80, 1, 6, 200, 2, [7]⟩
    let e : Env := ⟨true, 3, [11, 12, 13], false⟩
    (resolveAsync r e fun _ => ⟨0, 0, 0, 0⟩).1 = .ok ∧
    (resolveAsync r e fun _ => ⟨0, 0, 0, 0⟩).2.1 = [⟨true, [100, 2, 200, 7]⟩] ∧
    (resolveAsync r e fun _ => ⟨0, 0, 0, 0⟩).2.2 1 = ⟨12, 80, 1, 6⟩ ∧
    (resolveAsync r e fun _ => ⟨0, 0, 0, 0⟩).2.2 2 = ⟨0, 0, 0, 0⟩ := by
  decide +kernel

/-- C75 (limit). Requests with 56 to 64 user arguments pass the function's own check (64) but are always
    refused, because nine internal arguments are added. -/
theorem C75_argument_limit (r : Req) (e : Env) (mem : Nat → Info) (h : 55 < r.user.length) :
    (resolveAsync r e mem).1 ≠ .ok := by
  unfold resolveAsync
  dsimp only [ARGC_MAX]
  by_cases h' : r.user.length > 64
  · rw [if_pos h']; simp
  · rw [if_neg h', if_pos (by omega)]; simp

end Verif.OnQ
