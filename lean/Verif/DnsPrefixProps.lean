import Verif.DnsPrefix
import Verif.NetUtilProps

/-!
# C216: resolving a name does not redirect other destinations

An IPv4 destination of a queue with an IPv6 socket only is reached through the prefix of the queue
(C67, C78, C81).  The resolver changes that prefix: `C216_violated` shows that after the answer to a
request contained an ordinary IPv6 address `a`, every IPv4 destination is mapped into the /96 network
of the host `a`.
-/

namespace Verif.DnsPrefix
open Verif.Words (Endian)
open Verif.NetUtil

/-! ## Specification -/

/-- an IPv6 address that is neither v4-mapped nor in 64:ff9b::/96 -/
def Ordinary (f : Found) : Prop := f.fam = 10 ∧ ¬ Special f.addr

def isSet : Op → Bool
  | .set _ _ => true
  | .resolved _ _ => false

theorem reply_same (e : Endian) (v6 mem there : Bool) : ∀ (l : List Found) (q : Prefix),
    (v6 = false ∨ there = false ∨ ∀ f ∈ l, ¬ Ordinary f) → reply e v6 there mem q l = q
  | [], q, _ => rfl
  | f :: l, q, h => by
    simp only [reply]
    have e1 : (if v6 = true ∧ there = true ∧ f.fam = AF_INET6 then updatePrefix e mem q (some f.addr) else q) = q := by
      split
      · rename_i hc
        rcases h with h | h | h
        · rw [h] at hc; simp at hc
        · rw [h] at hc; simp at hc
        · have hs : Special f.addr := by
            apply Classical.byContradiction
            intro hn
            exact h f (by simp) ⟨hc.2.2, hn⟩
          unfold updatePrefix
          simp [(special_iff e f.addr).mpr hs]
      · rfl
    rw [e1]
    refine reply_same e v6 mem there l q ?_
    rcases h with h | h | h
    · exact .inl h
    · exact .inr (.inl h)
    · exact .inr (.inr fun g hg => h g (by simp [hg]))

/-- **C216 (partial).**  Without IPv6, or when no resolved address is an ordinary IPv6 address, the
answers to resolve requests change no mapping: every IPv4 address is mapped as if only the settings of
the user had been made. -/
theorem C216_untouched_partial (e : Endian) (v6 : Bool) (ops : List Op)
    (h : v6 = false ∨ ∀ l mem, .resolved l mem ∈ ops → ∀ f ∈ l, ¬ Ordinary f) (q : Prefix) (v4 : Sk) :
    fromIpv4 (run e v6 q ops) v4 = fromIpv4 (run e v6 q (ops.filter isSet)) v4 := by
  have key : ∀ (ops : List Op) (q : Prefix), (v6 = false ∨ ∀ l mem, .resolved l mem ∈ ops → ∀ f ∈ l, ¬ Ordinary f) →
      run e v6 q ops = run e v6 q (ops.filter isSet) := by
    intro ops
    induction ops with
    | nil => intro q _; rfl
    | cons op ops ih =>
      intro q h
      have h' : v6 = false ∨ ∀ l mem, .resolved l mem ∈ ops → ∀ f ∈ l, ¬ Ordinary f := by
        rcases h with h | h
        · exact .inl h
        · exact .inr fun l mem hm => h l mem (by simp [hm])
      cases op with
      | set a mem => exact ih _ h'
      | resolved l mem =>
        show run e v6 (reply e v6 true mem q l) ops = run e v6 q (ops.filter isSet)
        rw [reply_same e v6 mem true l q (by
          rcases h with h | h
          · exact .inl h
          · exact .inr (.inr (h l mem (by simp))))]
        exact ih q h'
  rw [key ops q h]

theorem reply_last (e : Endian) (f : Found) (hf : Ordinary f) : ∀ (pre post : List Found) (q : Prefix),
    (∀ g ∈ post, ¬ Ordinary g) → reply e true true true q (pre ++ f :: post) = some f.addr
  | [], post, q, hp => by
    have hs : (isV4Mapped e f.addr || isNat64 e f.addr) = false := by
      cases hh : (isV4Mapped e f.addr || isNat64 e f.addr) with
      | false => rfl
      | true => exact absurd ((special_iff e f.addr).mp hh) hf.2
    have hfam : f.fam = AF_INET6 := hf.1
    simp only [List.nil_append, reply, hfam, and_self, if_true]
    have e1 : updatePrefix e true q (some f.addr) = some f.addr := by
      unfold updatePrefix; simp only [hs]; cases q <;> rfl
    rw [e1]
    exact reply_same e true true true post _ (.inr (.inr hp))
  | g :: pre, post, q, hp => by
    simp only [List.cons_append, reply]
    exact reply_last e f hf pre post _ hp

/-- **C216 (violation).**  Whatever was set before, once an answer contained an ordinary IPv6 address
(and `f` is the last such), every IPv4 destination of the queue is mapped into the /96 network of that
host, so a socket for IPv6 only sends to a neighbour of the resolved host instead of through the
gateway's prefix. -/
theorem C216_violated (e : Endian) (ops : List Op) (pre post : List Found) (f : Found) (hf : Ordinary f)
    (hp : ∀ g ∈ post, ¬ Ordinary g) (q : Prefix) (v4 : Sk) :
    let m := fromIpv4 (run e true q (ops ++ [.resolved (pre ++ f :: post) true])) v4
    (∀ i, i < 12 → m.hi i = f.addr i) ∧ (∀ i, i < 4 → m.hi (12 + i) = v4.lo i) ∧
    ¬ SamePrefix m.hi (addr [0x64, 0xff9b]) 96 := by
  have h1 : run e true q (ops ++ [.resolved (pre ++ f :: post) true]) = some f.addr := by
    simp only [run, List.foldl_append, List.foldl_cons, List.foldl_nil, step]
    exact reply_last e f hf pre post _ hp
  intro m
  have h2 : ∀ i, i < 12 → m.hi i = f.addr i := by
    intro i hi
    show (fromIpv4 _ v4).hi i = _
    rw [h1]; simp [fromIpv4, hi]
  refine ⟨h2, ?_, ?_⟩
  · intro i hi
    show (fromIpv4 _ v4).hi (12 + i) = _
    rw [h1]
    have h3 : ¬ (12 + i < 12) := by omega
    have h4 : 12 + i - 12 = i := by omega
    simp [fromIpv4, h3, h4]
  · intro hs
    apply hf.2
    right
    intro b hb
    have := hs b hb
    rw [← this]
    have h5 : b / 8 < 12 := by omega
    simp only [SamePrefix, NetUtil.bit] at *
    rw [h2 (b / 8) h5]

/-- **C216 (violation).**  A socket for IPv6 only: the packet for the IPv4 address `v4` goes into the
resolved host's network. -/
theorem C216_violated_sends (e : Endian) (ops : List Op) (f : Found) (hf : Ordinary f) (q : Prefix) (junk v4 : Sk)
    (hv : v4.family = 2) (fd : Int) (hfd : fd ≠ -1) :
    ∃ d, dispatch e (run e true q (ops ++ [.resolved [f] true])) junk ⟨-1, fd⟩ v4 = some (fd, d) ∧
      d.family = 10 ∧ ∀ i, i < 12 → d.hi i = f.addr i := by
  refine ⟨fromIpv4 (run e true q (ops ++ [.resolved [f] true])) v4, ?_, ?_, ?_⟩
  · unfold dispatch; simp [hv, AF_INET, hfd]
  · rfl
  · exact (C216_violated e ops [] [] f hf (by simp) q v4).1

/-- **C216.**  A reset by the user brings the default back, until the next such answer. -/
theorem C216_reset (e : Endian) (ops : List Op) (more : List Op) (mem : Bool)
    (h : ∀ l m, .resolved l m ∈ more → ∀ f ∈ l, ¬ Ordinary f) (hs : ∀ a m, .set a m ∈ more → False) (q : Prefix) (v4 : Sk) :
    SamePrefix (fromIpv4 (run e true q (ops ++ .set none mem :: more)) v4).hi (addr [0x64, 0xff9b]) 96 := by
  have h1 : run e true q (ops ++ .set none mem :: more) = none := by
    have e1 : run e true q (ops ++ .set none mem :: more) = run e true none more := by
      simp [run, List.foldl_append, step, updatePrefix]
    rw [e1]
    clear e1
    induction more with
    | nil => rfl
    | cons op more ih =>
      cases op with
      | set a m => exact (hs a m (by simp)).elim
      | resolved l m =>
        show run e true (reply e true true m none l) more = none
        rw [reply_same e true m true l none (.inr (.inr (h l m (by simp))))]
        exact ih (fun l m hm => h l m (by simp [hm])) (fun a m hm => hs a m (by simp [hm]))
  rw [h1]
  exact (C81_prefix_in_force_partial e [] [] v4 (by simp)).2.2

/-! ## Concrete cases -/

/-- 2001:db8::1 -/
def exHost : Found := ⟨10, addr [0x2001, 0xdb8, 0, 0, 0, 0, 0, 1]⟩

theorem exHost_ordinary : Ordinary exHost := by
  refine ⟨rfl, ?_⟩
  rintro (h | h)
  · exact absurd (h.bytes (n := 12) 0 (by omega)) (by decide +kernel)
  · exact absurd (h.bytes (n := 12) 0 (by omega)) (by decide +kernel)

example : ((fromIpv4 (run .little true none [.resolved [⟨2, fun _ => 0#8⟩, exHost] true])
    ⟨2, 80#16, fun i => BitVec.ofNat 8 (192 + i), fun _ => 0#8, fun _ => 0#8⟩).hi 0,
    (fromIpv4 (run .little true none [.resolved [⟨2, fun _ => 0#8⟩] true])
    ⟨2, 80#16, fun i => BitVec.ofNat 8 (192 + i), fun _ => 0#8, fun _ => 0#8⟩).hi 1) = (0x20#8, 0x64#8) := by
  decide +kernel

end Verif.DnsPrefix
