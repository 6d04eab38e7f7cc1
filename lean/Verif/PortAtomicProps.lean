import Verif.PortAtomic
/-
  C178: the atomic operations are atomic on every port.
-/
namespace Verif.PortAtomic

/-- C178 (ports on intrinsics). Every operation does and returns what is specified, whichever intrinsic it is built from. -/
theorem C178_intrinsics (p : Port) (o : Op w) (v : BitVec w) : portOp p o v = spec o v := by
  cases p <;> cases o <;> simp [portOp, spec, addFetch, subFetch, fetchAdd, fetchSub, exchange, cmpExchN, interlockedCmp, BitVec.sub_eq_add_neg] <;>
    first
    | done
    | (split <;> simp_all)
    | (intro h; exact h.symm)
    | (rw [BitVec.add_assoc]; simp [BitVec.add_left_neg, BitVec.add_right_neg])
    | skip

example : portOp .ac791n .dec (7 : BitVec 32) = (6, 7) ∧ portOp .windows (.sub 3) (2 : BitVec 32) = (0xFFFFFFFF, 0xFFFFFFFF) := by decide

namespace Excl

/-- A thread whose monitor is set has loaded the present value; cmpxchg has loaded only the value it looks for. -/
def Inv (s : St w) : Prop :=
  (∀ t o c, s.pc t = .loaded o c → s.mon t = true → c = s.mem) ∧
  (∀ t c x n, s.pc t = .loaded (.cmpxchg x n) c → c = x) ∧
  (∀ t c, s.pc t ≠ .loaded .read c) ∧ ∀ t c i, s.pc t ≠ .loaded (.set i) c

theorem inv_init (v : BitVec w) : Inv (St.init v) := by
  refine ⟨?_, ?_, ?_, ?_⟩ <;> intros <;> simp_all [St.init]

/-- One step keeps the invariant, and an operation done has done and returned what is specified. -/
theorem step_ok {s s' : St w} {a : Act w} {e : Option (Nat × Op w × BitVec w)} (hI : Inv s) (hs : step s a = some (s', e)) :
    Inv s' ∧ (e = none → s'.mem = s.mem) ∧ ∀ t o r, e = some (t, o, r) → (s'.mem, r) = spec o s.mem := by
  obtain ⟨h1, h2, h3, h4⟩ := hI
  cases a with
  | call t o =>
    simp only [step] at hs
    split at hs
    · cases hs
      refine ⟨⟨?_, ?_, ?_, ?_⟩, fun _ => rfl, by intro _ _ _ h; cases h⟩
      · intro u o' c hp hm
        simp only [upd] at hp
        split at hp
        · cases hp
        · exact h1 u o' c hp hm
      · intro u c x n hp
        simp only [upd] at hp
        split at hp
        · cases hp
        · exact h2 u c x n hp
      · intro u c hp
        simp only [upd] at hp
        split at hp
        · cases hp
        · exact h3 u c hp
      · intro u c i hp
        simp only [upd] at hp
        split at hp
        · cases hp
        · exact h4 u c i hp
    · cases hs
  | load t =>
    simp only [step] at hs
    split at hs
    · cases hs
      refine ⟨⟨?_, ?_, ?_, ?_⟩, (by intro h; cases h), ?_⟩
      · intro u o' c hp hm
        simp only [upd] at hp
        split at hp
        · cases hp
        · exact h1 u o' c hp hm
      · intro u c x n hp
        simp only [upd] at hp
        split at hp
        · cases hp
        · exact h2 u c x n hp
      · intro u c hp
        simp only [upd] at hp
        split at hp
        · cases hp
        · exact h3 u c hp
      · intro u c i hp
        simp only [upd] at hp
        split at hp
        · cases hp
        · exact h4 u c i hp
      · intro _ _ _ h; cases h; rfl
    · cases hs
      refine ⟨⟨?_, ?_, ?_, ?_⟩, (by intro h; cases h), ?_⟩
      · intro u o' c hp hm; cases hm
      · intro u c x n hp
        simp only [upd] at hp
        split at hp
        · cases hp
        · exact h2 u c x n hp
      · intro u c hp
        simp only [upd] at hp
        split at hp
        · cases hp
        · exact h3 u c hp
      · intro u c i hp
        simp only [upd] at hp
        split at hp
        · cases hp
        · exact h4 u c i hp
      · intro _ _ _ h; cases h; rfl
    · split at hs
      · rename_i x n hpc hne
        cases hs
        refine ⟨⟨?_, ?_, ?_, ?_⟩, (by intro h; cases h), ?_⟩
        · intro u o' c hp hm
          simp only [upd] at hp hm
          split at hp
          · cases hp
          · rename_i hu
            rw [if_neg hu] at hm
            exact h1 u o' c hp hm
        · intro u c x n hp
          simp only [upd] at hp
          split at hp
          · cases hp
          · exact h2 u c x n hp
        · intro u c hp
          simp only [upd] at hp
          split at hp
          · cases hp
          · exact h3 u c hp
        · intro u c i hp
          simp only [upd] at hp
          split at hp
          · cases hp
          · exact h4 u c i hp
        · intro _ _ _ h; cases h; simp [spec, hne]
      · rename_i x n hpc hne
        cases hs
        refine ⟨⟨?_, ?_, ?_, ?_⟩, fun _ => rfl, by intro _ _ _ h; cases h⟩
        · intro u o' c hp hm
          simp only [upd] at hp hm
          split at hp
          · cases hp; rfl
          · rename_i hu
            rw [if_neg hu] at hm
            exact h1 u o' c hp hm
        · intro u c x' n' hp
          simp only [upd] at hp
          split at hp
          · cases hp; exact Decidable.of_not_not hne
          · exact h2 u c x' n' hp
        · intro u c hp
          simp only [upd] at hp
          split at hp
          · cases hp
          · exact h3 u c hp
        · intro u c i hp
          simp only [upd] at hp
          split at hp
          · cases hp
          · exact h4 u c i hp
    · rename_i o ho1 ho2 ho3 hpc
      cases hs
      refine ⟨⟨?_, ?_, ?_, ?_⟩, fun _ => rfl, by intro _ _ _ h; cases h⟩
      · intro u o' c hp hm
        simp only [upd] at hp hm
        split at hp
        · cases hp; rfl
        · rename_i hu
          rw [if_neg hu] at hm
          exact h1 u o' c hp hm
      · intro u c x' n' hp
        simp only [upd] at hp
        split at hp
        · cases hp; exact absurd rfl (ho3 _ _)
        · exact h2 u c x' n' hp
      · intro u c hp
        simp only [upd] at hp
        split at hp
        · cases hp; exact absurd rfl ho1
        · exact h3 u c hp
      · intro u c i hp
        simp only [upd] at hp
        split at hp
        · cases hp; exact absurd rfl (ho2 _)
        · exact h4 u c i hp
    · cases hs
  | store t lucky =>
    simp only [step] at hs
    split at hs
    · rename_i o c hpc
      split at hs
      · rename_i hm
        simp only [Bool.and_eq_true] at hm
        have hc := h1 t o c hpc hm.1
        cases hs
        refine ⟨⟨?_, ?_, ?_, ?_⟩, (by intro h; cases h), ?_⟩
        · intro u o' c' hp hm'; cases hm'
        · intro u c x n hp
          simp only [upd] at hp
          split at hp
          · cases hp
          · exact h2 u c x n hp
        · intro u c hp
          simp only [upd] at hp
          split at hp
          · cases hp
          · exact h3 u c hp
        · intro u c i hp
          simp only [upd] at hp
          split at hp
          · cases hp
          · exact h4 u c i hp
        · intro t' o' r h
          cases h
          subst hc
          cases o with
          | cmpxchg x n => simp [stored, returned, spec, h2 t _ x n hpc]
          | read => exact absurd hpc (h3 t _)
          | set i => exact absurd hpc (h4 t _ i)
          | inc => rfl
          | dec => rfl
          | add i => rfl
          | sub i => rfl
          | xchg n => rfl
      · cases hs
        refine ⟨⟨?_, ?_, ?_, ?_⟩, fun _ => rfl, by intro _ _ _ h; cases h⟩
        · intro u o' c' hp hm
          simp only [upd] at hp hm
          split at hp
          · cases hp
          · rename_i hu
            rw [if_neg hu] at hm
            exact h1 u o' c' hp hm
        · intro u c x n hp
          simp only [upd] at hp
          split at hp
          · cases hp
          · exact h2 u c x n hp
        · intro u c hp
          simp only [upd] at hp
          split at hp
          · cases hp
          · exact h3 u c hp
        · intro u c i hp
          simp only [upd] at hp
          split at hp
          · cases hp
          · exact h4 u c i hp
    · cases hs
  | clear t =>
    cases hs
    refine ⟨⟨?_, h2, h3, h4⟩, fun _ => rfl, by intro _ _ _ h; cases h⟩
    intro u o' c' hp hm
    simp only [upd] at hm
    split at hm
    · cases hm
    · exact h1 u o' c' hp hm

theorem run_ok (l : List (Act w)) : ∀ (s s' : St w) (g : List (Nat × Op w × BitVec w)), Inv s → run s l = some (s', g) →
    Inv s' ∧ replay s.mem (g.map (·.2.1)) = (s'.mem, g.map (·.2.2)) := by
  induction l with
  | nil => intro s s' g hI hr; cases hr; exact ⟨hI, rfl⟩
  | cons a l ih =>
    intro s s' g hI hr
    simp only [run] at hr
    split at hr
    · cases hr
    · rename_i s1 e hs
      obtain ⟨hI1, hn, hsome⟩ := step_ok hI hs
      cases hr2 : run s1 l with
      | none => rw [hr2] at hr; cases hr
      | some p =>
        obtain ⟨s2, g2⟩ := p
        rw [hr2] at hr
        simp only [Option.map_some, Option.some.injEq, Prod.mk.injEq] at hr
        obtain ⟨rfl, rfl⟩ := hr
        obtain ⟨hI2, hg⟩ := ih s1 s2 g2 hI1 hr2
        refine ⟨hI2, ?_⟩
        cases e with
        | none =>
          simp only [Option.toList_none, List.nil_append]
          rw [← hn rfl]; exact hg
        | some x =>
          obtain ⟨t, o, r⟩ := x
          have hx := hsome t o r rfl
          simp only [Option.toList_some, List.cons_append, List.nil_append, List.map_cons, replay]
          rw [← hx]
          simp only
          rw [hg]

/-- C178 (LDREX/STREX). For any number of threads and any interleaving, with stores failing and monitors cleared at any time: every operation takes effect at one instant
    between its call and its return; done one after another in the order of these instants, the operations give the same results and the same final value. -/
theorem C178_exclusive (v : BitVec w) (l : List (Act w)) (s : St w) (g : List (Nat × Op w × BitVec w)) (h : run (St.init v) l = some (s, g)) :
    replay v (g.map (·.2.1)) = (s.mem, g.map (·.2.2)) := (run_ok l _ s g (inv_init v) h).2

/-- Two threads increment; the first one's store fails because the second was faster. -/
example : (run (St.init (5 : BitVec 32)) [.call 0 .inc, .call 1 (.add 2), .load 0, .load 1, .store 1 true, .store 0 true, .load 0, .store 0 true]).map
    (fun p => (p.1.mem, p.2)) = some (8, [(1, .add 2, 7), (0, .inc, 7)]) := by decide

/-- C178 (LDREX/STREX: no operation has to wait). A thread that is not interrupted between its LDREX and its STREX is done with them. -/
theorem C178_progress (s : St w) (t : Nat) (o : Op w) (h : s.pc t = .start o) :
    (∃ s' r, step s (.load t) = some (s', some (t, o, r))) ∨
    ∃ s1 s2 r, step s (.load t) = some (s1, none) ∧ step s1 (.store t true) = some (s2, some (t, o, r)) := by
  cases o with
  | read => left; simp [step, h]
  | set i => left; simp [step, h]
  | cmpxchg x n =>
    by_cases hx : s.mem = x
    · right; simp [step, h, hx, upd]
    · left; simp [step, h, hx]
  | inc => right; simp [step, h, upd]
  | dec => right; simp [step, h, upd]
  | add i => right; simp [step, h, upd]
  | sub i => right; simp [step, h, upd]
  | xchg n => right; simp [step, h, upd]

end Excl

/-! ### Counting down -/

theorem replay_down (k : Nat) : ∀ (v : BitVec w), v.toNat = k → (replay v (List.replicate k (.sub 1))).2.map BitVec.toNat = (List.range k).reverse ∧
    (replay v (List.replicate k (.sub 1))).1 = 0 := by
  induction k with
  | zero => intro v hv; exact ⟨rfl, by apply BitVec.eq_of_toNat_eq; simpa [replay] using hv⟩
  | succ k ih =>
    intro v hv
    have hlt := v.isLt
    have hpos : 1 < 2 ^ w := by omega
    have hw : (1 : BitVec w).toNat = 1 := by
      rw [BitVec.ofNat_eq_ofNat, BitVec.toNat_ofNat]; exact Nat.mod_eq_of_lt hpos
    have e : (v - 1).toNat = k := by
      rw [BitVec.toNat_sub, hw, hv, show 2 ^ w - 1 + (k + 1) = k + 2 ^ w by omega, Nat.add_mod_right]
      exact Nat.mod_eq_of_lt (by omega)
    obtain ⟨h1, h2⟩ := ih (v - 1) e
    rw [List.replicate_succ]
    simp only [replay, spec, List.map_cons, e, h1, h2]
    rw [List.range_succ, List.reverse_append]
    simp

/-- C178 (the last reference). A counter holds the number of its users; each of them gives up its reference once (aosl_atomic_dec_and_test, the release of queues, timers,
    descriptors and reference objects). Then exactly one of them, the last, is told that the counter is 0. -/
theorem C178_last (v : BitVec w) (l : List (Excl.Act w)) (s : Excl.St w) (g : List (Nat × Op w × BitVec w)) (h : Excl.run (Excl.St.init v) l = some (s, g))
    (hg : ∀ x ∈ g, x.2.1 = .sub 1) (hn : g.length = v.toNat) : s.mem = 0 ∧ g.map (fun x => x.2.2.toNat) = (List.range v.toNat).reverse := by
  have hr := Excl.C178_exclusive v l s g h
  have hm : g.map (·.2.1) = List.replicate v.toNat (.sub 1) := by
    rw [← hn]; clear h hr hn
    induction g with
    | nil => rfl
    | cons x g ih =>
      rw [List.map_cons, hg x (by simp), ih (fun y hy => hg y (by simp [hy]))]
      rfl
  rw [hm] at hr
  obtain ⟨h1, h2⟩ := replay_down v.toNat v rfl
  rw [hr] at h1 h2
  exact ⟨h2, by simpa [List.map_map, Function.comp_def] using h1⟩

example : ∃ s g, Excl.run (Excl.St.init (2 : BitVec 32)) [.call 0 (.sub 1), .call 1 (.sub 1), .load 0, .load 1, .store 1 true, .store 0 true, .load 0, .store 0 true] =
    some (s, g) ∧ (∀ x ∈ g, x.2.1 = .sub 1) ∧ g.length = 2 ∧ g.map (·.1) = [1, 0] := by
  refine ⟨_, _, rfl, ?_, rfl, rfl⟩
  decide

namespace Tw

theorem step_mem {s s' : St w} {a : Act w} {e : Ev w} (hs : step s a = some (s', e)) :
    match e.effect with
    | none => s'.mem = s.mem
    | some o => s'.mem = (spec o s.mem).1 := by
  cases a with
  | call t o =>
    simp only [step] at hs
    split at hs <;> cases hs
    rfl
  | go t =>
    simp only [step] at hs
    split at hs <;> cases hs <;> rfl

/-- C178 (tw82x: no change is lost). For any number of threads and any interleaving the final value is that of the operations done one after another in the order of their
    changes. -/
theorem C178_tw82x_value (v : BitVec w) (l : List (Act w)) (s : St w) (f : List (Op w)) (g : List (Nat × Op w × BitVec w)) (h : run (St.init v) l = some (s, f, g)) :
    s.mem = (replay v f).1 := by
  have key : ∀ (l : List (Act w)) (s0 s : St w) (f : List (Op w)) (g : List (Nat × Op w × BitVec w)), run s0 l = some (s, f, g) → s.mem = (replay s0.mem f).1 := by
    intro l
    induction l with
    | nil => intro s0 s f g h; cases h; rfl
    | cons a l ih =>
      intro s0 s f g h
      simp only [run] at h
      split at h
      · cases h
      · rename_i s1 e hs
        cases hr : run s1 l with
        | none => rw [hr] at h; cases h
        | some p =>
          obtain ⟨s2, f2, g2⟩ := p
          rw [hr] at h
          simp only [Option.map_some, Option.some.injEq, Prod.mk.injEq] at h
          obtain ⟨rfl, rfl, rfl⟩ := h
          have hm := step_mem hs
          have := ih s1 s2 f2 g2 hr
          cases he : e.effect with
          | none => rw [he] at hm; simp only [Option.toList_none, List.nil_append]; rw [this, hm]
          | some o => rw [he] at hm; simp only [Option.toList_some, List.cons_append, List.nil_append, replay]; rw [this, hm]
  exact key l _ s f g h

/-- C178 (tw82x, partial): an operation during which no other thread runs does and returns what is specified. -/
theorem C178_tw82x_alone_partial (s : St w) (t : Nat) (o : Op w) (h : s.pc t = .idle) :
    ∃ l s' f, (l = [.call t o, .go t] ∨ l = [.call t o, .go t, .go t]) ∧ run s l = some (s', f, [(t, o, (spec o s.mem).2)]) ∧ s'.mem = (spec o s.mem).1 ∧ s'.pc t = .idle := by
  cases o with
  | read => exact ⟨_, _, _, .inl rfl, by simp [run, step, h, Excl.upd, spec]; exact ⟨rfl, rfl⟩, by simp [spec], by simp [Excl.upd]⟩
  | set i => exact ⟨_, _, _, .inl rfl, by simp [run, step, h, Excl.upd, spec]; exact ⟨rfl, rfl⟩, by simp [spec], by simp [Excl.upd]⟩
  | cmpxchg x n => exact ⟨_, _, _, .inl rfl, by simp [run, step, h, Excl.upd, spec]; exact ⟨rfl, rfl⟩, by simp [spec], by simp [Excl.upd]⟩
  | xchg n => exact ⟨_, _, _, .inl rfl, by simp [run, step, h, Excl.upd, spec]; exact ⟨rfl, rfl⟩, by simp [spec], by simp [Excl.upd]⟩
  | inc => exact ⟨_, _, _, .inr rfl, by simp [run, step, h, Excl.upd, spec]; exact ⟨rfl, rfl⟩, by simp [spec], by simp [Excl.upd]⟩
  | dec => exact ⟨_, _, _, .inr rfl, by simp [run, step, h, Excl.upd, spec]; exact ⟨rfl, rfl⟩, by simp [spec], by simp [Excl.upd]⟩
  | add i => exact ⟨_, _, _, .inr rfl, by simp [run, step, h, Excl.upd, spec]; exact ⟨rfl, rfl⟩, by simp [spec], by simp [Excl.upd]⟩
  | sub i => exact ⟨_, _, _, .inr rfl, by simp [run, step, h, Excl.upd, spec]; exact ⟨rfl, rfl⟩, by simp [spec], by simp [Excl.upd]⟩

example : (St.init (3 : BitVec 32)).pc 7 = .idle := rfl

/-- C178 is false of the code (tw82x): of two users both are told that they were the last one, and both release what is counted. -/
theorem C178_tw82x_twice (a b : Nat) (hab : a ≠ b) :
    ∃ s f, run (St.init (2 : BitVec 32)) [.call a (.sub 1), .call b (.sub 1), .go a, .go b, .go a, .go b] = some (s, f, [(a, .sub 1, 0), (b, .sub 1, 0)]) := by
  have hba : ¬ b = a := fun e => hab e.symm
  exact ⟨_, _, by simp [run, step, St.init, Excl.upd, hab, hba]; exact ⟨rfl, rfl⟩⟩

/-- … and two increments return the same old value. -/
theorem C178_tw82x_same (a b : Nat) (hab : a ≠ b) (v : BitVec w) :
    ∃ s f, run (St.init v) [.call a .inc, .call b .inc, .go a, .go b, .go a, .go b] = some (s, f, [(a, .inc, v), (b, .inc, v)]) := by
  have hba : ¬ b = a := fun e => hab e.symm
  exact ⟨_, _, by simp [run, step, St.init, Excl.upd, hab, hba]; exact ⟨rfl, rfl⟩⟩

end Tw
end Verif.PortAtomic
