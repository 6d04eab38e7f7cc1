import Verif.QFlags
/-! Properties C165 (flags of a queue) and C166 (the performance callback). -/
namespace Verif.QFlags

/-! ## C165 -/

namespace Spec

/-- One bit of the flags under one change: set, cleared or toggled as the call says. -/
def bit (b : Bool) (op : Int) (x : Bool) : Bool :=
  if op = 0 then b || x else if op = 1 then b && x else if op = 2 then b != x else b

def bits (i : Nat) (b : Bool) : List (Int × Flags) → Bool
  | [] => b
  | (op, x) :: l => bits i (bit b op (x.getLsbD i)) l

/-- A change that can only touch the NONBLOCK bit. -/
def Mild (c : Int × Flags) : Prop :=
  (c.1 = 0 ∧ ∀ i, 1 ≤ i → i < 32 → c.2.getLsbD i = false) ∨ (c.1 = 1 ∧ ∀ i, 1 ≤ i → i < 32 → c.2.getLsbD i = true) ∨
  (c.1 = 2 ∧ ∀ i, 1 ≤ i → i < 32 → c.2.getLsbD i = false)

end Spec

theorem changes_chan (l : List (Int × Flags)) : ∀ q : Q, (q.changes l).chan = q.chan := by
  induction l with
  | nil => intro q; rfl
  | cons c l ih => intro q; rw [Q.changes, ih]; rfl

theorem change_bit (f : Flags) (op : Int) (b : Flags) (i : Nat) : (changeFlags f op b).getLsbD i = Spec.bit (f.getLsbD i) op (b.getLsbD i) := by
  unfold changeFlags Spec.bit
  split
  · simp
  · split
    · simp
    · split
      · rw [BitVec.getLsbD_xor]
      · rfl

/-- C165 (the flags are what was asked for). After any sequence of changes every bit of the flags is what the calls say, one after the other. -/
theorem C165_exact (q : Q) (l : List (Int × Flags)) (i : Nat) : (q.changes l).flags.getLsbD i = Spec.bits i (q.flags.getLsbD i) l := by
  induction l generalizing q with
  | nil => rfl
  | cons c l ih => rw [Q.changes, ih, Spec.bits]; simp only [Q.change, change_bit]

/-- Reserved flags cannot be given at creation. -/
theorem C165_create (f : Flags) : (userCreate f).isSome ↔ ∀ i, 16 ≤ i → i < 32 → f.getLsbD i = false := by
  unfold userCreate
  have : f &&& 0xffff0000#32 = 0#32 ↔ ∀ i, 16 ≤ i → i < 32 → f.getLsbD i = false := by
    constructor
    · intro h i h1 h2
      have := congrArg (fun x : BitVec 32 => x.getLsbD i) h
      have hm : ∀ i : Fin 32, 16 ≤ i.val → (0xffff0000#32).getLsbD i.val = true := by decide
      simpa [hm ⟨i, h2⟩ h1] using this
    · intro h
      apply BitVec.eq_of_getLsbD_eq
      intro i hi
      rw [BitVec.getLsbD_and]
      by_cases h1 : 16 ≤ i
      · rw [h i h1 hi]; simp
      · have hm : ∀ i : Fin 32, ¬ 16 ≤ i.val → (0xffff0000#32).getLsbD i.val = false := by decide
        rw [hm ⟨i, hi⟩ h1]; simp
  by_cases h : f &&& 0xffff0000#32 = 0#32
  · simp only [h, ne_eq, not_true_eq_false, if_false, Option.isSome_some, true_iff]; exact this.1 h
  · simp only [h, ne_eq, not_false_eq_true, if_true, Option.isSome_none, Bool.false_eq_true, false_iff]; exact fun g => h (this.2 g)

theorem mild_bit {c : Int × Flags} (h : Spec.Mild c) (f : Flags) {i : Nat} (h1 : 1 ≤ i) (h2 : i < 32) : (changeFlags f c.1 c.2).getLsbD i = f.getLsbD i := by
  rw [change_bit]
  unfold Spec.bit
  rcases h with ⟨a, b⟩ | ⟨a, b⟩ | ⟨a, b⟩ <;> rw [a, b i h1 h2] <;> simp

/-- C165 (partial). If only the NONBLOCK bit is ever changed, the queue keeps working: it can always be woken up, its descriptors are watched exactly if it
    takes any, a protected queue stays protected and another one can be destroyed; and NONBLOCK decides whether queuing to it waits.
    Missing: the same for all changes the call accepts, see the violations below. -/
theorem C165_partial (f : Flags) (l : List (Int × Flags)) (hl : ∀ c ∈ l, Spec.Mild c) :
    let q := (make f).changes l
    q.kick = .woken ∧ q.sleep = .sleeps true (q.addFd) ∧ q.addFd = (make f).addFd ∧ q.destroy = (make f).destroy ∧
      q.blocks = !Spec.bits 0 (f.getLsbD 0) l := by
  intro q
  have key : ∀ i, 1 ≤ i → i < 32 → q.flags.getLsbD i = f.getLsbD i := by
    intro i h1 h2
    have : ∀ (l : List (Int × Flags)) (q : Q), (∀ c ∈ l, Spec.Mild c) → (q.changes l).flags.getLsbD i = q.flags.getLsbD i := by
      intro l
      induction l with
      | nil => intro q _; rfl
      | cons c l ih =>
        intro q h
        rw [Q.changes, ih _ (fun x hx => h x (by simp [hx]))]
        exact mild_bit (h c (by simp)) q.flags h1 h2
    exact this l (make f) hl
  have hc : q.chan = (make f).chan := changes_chan l _
  have h1 : sigpEvent q.flags = sigpEvent f := key 1 (by omega) (by omega)
  have h31 : noDestroy q.flags = noDestroy f := key 31 (by omega) (by omega)
  have h0 : nonblock q.flags = Spec.bits 0 (f.getLsbD 0) l := C165_exact (make f) l 0
  have hch : q.chan = if sigpEvent f then .event else .pipe := hc
  refine ⟨?_, ?_, ?_, ?_, ?_⟩
  · unfold Q.kick; rw [h1, hch]; cases sigpEvent f <;> rfl
  · unfold Q.sleep Q.addFd; rw [h1, hch]; cases sigpEvent f <;> rfl
  · unfold Q.addFd; rw [h1]; rfl
  · unfold Q.destroy; rw [h31]; rfl
  · unfold Q.blocks; rw [h0]

/-- non-vacuity: NONBLOCK set, cleared and toggled on the flags of a pool's queue -/
example : (∀ c ∈ [((0 : Int), 1#32), (1, 0xfffffffe#32), (2, 1#32)], Spec.Mild c) ∧
    ((make 0x80000002#32).changes [(0, 1#32), (1, 0xfffffffe#32), (2, 1#32)]) = ⟨0x80000003#32, .event⟩ := by
  have hz : ∀ i : Fin 32, 1 ≤ i.val → (1#32).getLsbD i.val = false := by decide
  have ho : ∀ i : Fin 32, 1 ≤ i.val → (0xfffffffe#32).getLsbD i.val = true := by decide
  refine ⟨?_, by decide⟩
  intro c hc
  simp only [List.mem_cons, List.not_mem_nil, or_false] at hc
  rcases hc with rfl | rfl | rfl
  · exact .inl ⟨rfl, fun i h1 h2 => hz ⟨i, h2⟩ h1⟩
  · exact .inr (.inl ⟨rfl, fun i h1 h2 => ho ⟨i, h2⟩ h1⟩)
  · exact .inr (.inr ⟨rfl, fun i h1 h2 => hz ⟨i, h2⟩ h1⟩)

/-- C165 is false of the code: aosl_mpq_change_flags takes the protection off the main queue and the queues of pools, after which anybody can destroy
    them; and puts it on an ordinary queue, which nobody can destroy then. -/
theorem C165_protection (f : Flags) :
    ((make f).change 1 0x7fffffff#32).destroy = true ∧ ((make f).change 0 0x80000000#32).destroy = false := by
  constructor <;> simp [Q.change, make, Q.destroy, noDestroy, changeFlags]

/-- C165 is false of the code: the wake-up flag can be changed although the means of waking up were made for the old one. Set on a queue with a pipe, the next
    kick, and the queue's next sleep, dereference NULL; cleared on a queue with an event, kicks are lost and the queue sleeps without being
    wakeable. -/
theorem C165_wakeup (f : Flags) :
    (sigpEvent f = false → ((make f).change 0 2#32).kick = .crash ∧ ((make f).change 0 2#32).sleep = .crash) ∧
    (sigpEvent f = true → ((make f).change 1 0xfffffffd#32).kick = .lost ∧ ((make f).change 1 0xfffffffd#32).sleep = .sleeps false true) := by
  constructor <;> intro h <;> simp [Q.change, make, Q.kick, Q.sleep, changeFlags, sigpEvent] at h ⊢ <;> simp [h]

/-- C165 is false of the code: an operation that does not exist is accepted and does nothing; the call says success all the same. -/
theorem C165_bad_op (q : Q) (op : Int) (bits : Flags) (h : op < 0 ∨ 2 < op) : q.change op bits = q := by
  have h0 : op ≠ 0 := by omega
  have h1 : op ≠ 1 := by omega
  have h2 : op ≠ 2 := by omega
  simp [Q.change, changeFlags, h0, h1, h2]

/-- C165 is false of the code: the answer of aosl_mpq_get_flags is negative, as in the case of an error, exactly for protected queues. -/
theorem C165_negative (q : Q) : q.get < 0 ↔ q.destroy = false := by
  unfold Q.get Q.destroy noDestroy
  rw [BitVec.toInt_neg_iff]
  have := BitVec.msb_eq_getLsbD_last q.flags
  rw [BitVec.msb_eq_decide] at this
  have h2 : (2 * q.flags.toNat ≥ 2 ^ 32) ↔ q.flags.getLsbD 31 = true := by
    rw [← show q.flags.getLsbD (32 - 1) = q.flags.getLsbD 31 from rfl, ← this, decide_eq_true_iff]
    omega
  rw [← ge_iff_le, h2]
  cases q.flags.getLsbD 31 <;> simp

/-! ## C166 -/

def Pc.holds : Pc → Bool
  | .out => false
  | _ => true

structure Inv (ts : List Nat) (s : St) : Prop where
  count : s.count = s.live.length
  nodup : (s.live.map (·.1)).Nodup
  own : ∀ t, t ∉ ts → s.pc t = .out
  seen : ∀ t f, s.pc t = .seen f → s.count = 0
  same : ∀ q f, (q, f) ∈ s.live → f = s.perf

theorem noReader_iff {s : St} {ts : List Nat} : s.noReader ts = true ↔ ∀ t ∈ ts, s.pc t = .out := by
  simp [St.noReader, List.all_eq_true]

theorem length_filter_fst (q : Nat) : ∀ (l : List (Nat × Nat)), (l.map (·.1)).Nodup → q ∈ l.map (·.1) → (l.filter (·.1 ≠ q)).length = l.length - 1
  | (a, b) :: l, hn, hm => by
    simp only [List.map_cons, List.nodup_cons] at hn
    by_cases h : a = q
    · subst h
      have : l.filter (fun x => decide (x.1 ≠ a)) = l := by
        rw [List.filter_eq_self]
        intro x hx
        simp only [decide_eq_true_eq]
        intro e
        exact hn.1 (List.mem_map.2 ⟨x, hx, e⟩)
      rw [List.filter_cons, if_neg (by simp), this]
      simp
    · have hm' : q ∈ l.map (·.1) := by
        simp only [List.map_cons, List.mem_cons] at hm
        rcases hm with e | e
        · exact absurd e.symm h
        · exact e
      have := length_filter_fst q l hn.2 hm'
      have hpos : 0 < l.length := by
        cases l with
        | nil => simp at hm'
        | cons => simp
      rw [List.filter_cons]
      simp only [ne_eq, h, not_false_eq_true, decide_true, if_true, List.length_cons] at this ⊢
      omega

theorem inv_step {ts : List Nat} {s s' : St} {a : Act} (h : Inv ts s) (hs : step ts s a = some s') : Inv ts s' := by
  obtain ⟨h1, h2, h3, h4, h5⟩ := h
  cases a with
  | lock t f => simp only [step] at hs; split at hs <;> cases hs; constructor <;> simp only [upd] <;> grind
  | test t => simp only [step] at hs; split at hs <;> cases hs; constructor <;> simp only [upd] <;> grind
  | write t =>
    simp only [step] at hs
    split at hs <;> cases hs
    rename_i f hp
    have h0 : s.live = [] := List.length_eq_zero_iff.1 (by rw [← h1]; exact h4 t f hp)
    constructor <;> simp only [upd] <;> grind
  | unlock t => simp only [step] at hs; split at hs <;> cases hs; constructor <;> simp only [upd] <;> grind
  | reserve q =>
    simp only [step] at hs
    split at hs <;> cases hs
    rename_i hc
    have hr := noReader_iff.1 hc.1
    have hall : ∀ t, s.pc t = .out := fun t => if ht : t ∈ ts then hr t ht else h3 t ht
    refine ⟨?_, ?_, h3, ?_, ?_⟩
    · simp [h1]
    · simp only [List.map_cons, List.nodup_cons]; exact ⟨hc.2, h2⟩
    · intro t f ht; rw [hall t] at ht; cases ht
    · intro q' f hm
      simp only [List.mem_cons, Prod.mk.injEq] at hm
      rcases hm with ⟨_, e⟩ | e
      · exact e
      · exact h5 q' f e
  | release q =>
    simp only [step] at hs
    split at hs <;> cases hs
    rename_i hc
    have hr := noReader_iff.1 hc.1
    have hall : ∀ t, s.pc t = .out := fun t => if ht : t ∈ ts then hr t ht else h3 t ht
    refine ⟨?_, ?_, h3, ?_, ?_⟩
    · rw [length_filter_fst q s.live h2 hc.2, h1]
    · exact h2.sublist (List.Sublist.map _ (List.filter_sublist))
    · intro t f ht; rw [hall t] at ht; cases ht
    · intro q' f hm; exact h5 q' f (List.mem_filter.1 hm).1

theorem inv_reach {ts : List Nat} {s : St} (h : Reach ts s) : Inv ts s := by
  induction h with
  | init => constructor <;> simp [St.init]
  | step _ hs ih => exact inv_step ih hs

/-- C166. In every interleaving of any number of threads setting the callback with queues beginning and ending: as long as a queue exists, the callback
    is the one that was set when it began; so what one executed function reads before and after is the same, and a report is never made without
    a starting time. -/
theorem C166_constant {ts : List Nat} {s : St} (h : Reach ts s) :
    (∀ q f, (q, f) ∈ s.live → f = s.perf) ∧ (∀ a, report a a ≠ .garbage) := by
  refine ⟨(inv_reach h).same, fun a => ?_⟩
  unfold report
  split
  · simp
  · simp

/-- C166 (over time). If a queue exists before and after a step, the callback has not changed. -/
theorem C166_stable {ts : List Nat} {s s' : St} {a : Act} (h : Reach ts s) (hs : step ts s a = some s') (q f : Nat)
    (hq : (q, f) ∈ s.live) : s'.perf = s.perf := by
  have hi := inv_reach h
  cases a <;> simp only [step] at hs <;> (repeat' split at hs) <;> (try cases hs) <;> try rfl
  rename_i hp
  have := hi.seen _ _ hp
  rw [hi.count, List.length_eq_zero_iff] at this
  rw [this] at hq
  cases hq

/-- C166 (the answer). The call is refused exactly when a queue exists at the time of the test; otherwise the callback is set and the call succeeds. -/
theorem C166_answer (ts : List Nat) (s : St) (t f : Nat) (h : s.pc t = .in f) :
    ∃ s1, step ts s (.test t) = some s1 ∧
      (s.count ≠ 0 → s1.pc t = .done false ∧ s1.perf = s.perf) ∧
      (s.count = 0 → ∃ s2, step ts s1 (.write t) = some s2 ∧ s2.pc t = .done true ∧ s2.perf = f) := by
  refine ⟨{ s with pc := upd s.pc t (if s.count = 0 then .seen f else .done false) }, by simp [step, h], ?_, ?_⟩
  · intro h0; simp [upd, h0]
  · intro h0; simp [step, upd, h0]

/-- two threads set callbacks, a queue begins afterwards and the next call is refused -/
example : ((run [1, 2] .init [.lock 1 7, .lock 2 8, .test 1, .test 2, .write 2, .write 1, .unlock 1, .unlock 2, .reserve 5, .lock 1 9, .test 1]).map fun s =>
    decide (s.perf = 7 ∧ s.live = [(5, 7)] ∧ s.pc 1 = .done false)) = some true := by
  decide +kernel

end Verif.QFlags
