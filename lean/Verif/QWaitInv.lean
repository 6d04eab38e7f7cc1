import Verif.QWait
/-! Inductive invariant of the model of a queue's life. -/
namespace Verif.QWait

/-- waiters the queue's thread still has to tell, after the object was freed -/
def Ph.todo : Ph → List Nat
  | .notify _ l => l
  | .nlocked _ t l => t :: l
  | .ntold _ _ l => l
  | _ => []

/-- the waiter whose mutex the queue's thread holds -/
def Ph.cur : Ph → Option Nat
  | .nlocked _ t _ => some t
  | .ntold _ t _ => some t
  | _ => none

/-- after `drained` -/
def Ph.late : Ph → Bool
  | .finished _ | .notify _ _ | .nlocked _ _ _ | .ntold _ _ _ | .ended => true
  | _ => false

/-- after `free` -/
def Ph.after : Ph → Bool
  | .notify _ _ | .nlocked _ _ _ | .ntold _ _ _ | .ended => true
  | _ => false

/-- the object exists -/
def Ph.obj : Ph → Bool
  | .initing | .ready | .loop | .drain _ | .finished _ => true
  | _ => false

def Ph.named : Ph → Bool
  | .initing | .ready | .loop => true
  | _ => false

/-- has linked its entry -/
def Pc.linked : Pc → Bool
  | .added _ | .asked | .waits | .locked | .sleeps | .returned => true
  | _ => false

def Pc.holds : Pc → Bool
  | .got _ | .added _ | .asked => true
  | _ => false

structure Inv (s : St) : Prop where
  alive : s.alive = s.ph.obj
  inst : s.installed = s.ph.named
  usage : s.ph.obj = true → s.usage = 1 + s.holders.length + s.others
  holders : ∀ t, t ∈ s.holders ↔ (s.pc t).holds = true
  hnodup : s.holders.Nodup
  late : s.ph.late = true → s.holders = [] ∧ s.others = 0
  noobj : s.ph.obj = false → s.holders = [] ∧ s.others = 0
  early : s.ph = .boot ∨ s.ph = .failed → s.list = []
  list : ∀ t, t ∈ s.list ↔ (s.pc t).linked = true
  lnodup : s.list.Nodup
  todo : s.ph.todo.Nodup
  todoIn : ∀ t ∈ s.ph.todo, t ∈ s.list ∧ s.res t = false
  todoAll : s.ph.after = true → ∀ t ∈ s.list, s.res t = true ∨ t ∈ s.ph.todo
  before : s.ph.after = false → ∀ t, s.res t = false
  ret : ∀ t, s.pc t = .returned → s.res t = true ∧ s.ph.cur ≠ some t
  cur : ∀ t, s.mtx t = some true ↔ s.ph.cur = some t
  lck : ∀ t, s.mtx t = some false ↔ s.pc t = .locked
  told : ∀ b t l, s.ph = .ntold b t l → s.res t = true ∧ t ∉ l ∧ t ∈ s.list
  nlk : ∀ b t l, s.ph = .nlocked b t l → t ∉ l
  slp : ∀ t, s.pc t = .sleeps → s.res t = true → s.sig t = true
  noUaf : s.uaf = false
  noDead : s.dead = false

theorem inv_init : Inv St.init := by
  constructor <;> simp [St.init, Ph.obj, Ph.named, Ph.late, Ph.todo, Ph.after, Ph.cur, Pc.holds, Pc.linked]

theorem upd_apply {β : Type} (f : Nat → β) (i : Nat) (v : β) (j : Nat) : upd f i v j = if j = i then v else f j := rfl

set_option maxHeartbeats 4000000 in
theorem inv_step {s s' : St} {a : Act} (h : Inv s) (hs : step s a = some s') : Inv s' := by
  obtain ⟨h1, h2, h3, h4, h5, h6, h7, h8, h9, h10, h11, h12, h13, h14, h15, h16, h17, h18, h19, h20, h21, h22⟩ := h
  have p1 : s.ph.named = true → s.ph.obj = true ∧ s.ph.late = false := by cases s.ph <;> simp [Ph.named, Ph.obj, Ph.late]
  have p2 : s.ph.after = true → s.ph.obj = false := by cases s.ph <;> simp [Ph.after, Ph.obj]
  have p3 : ∀ t, s.ph.cur = some t → s.ph.after = true := by intro t; cases s.ph <;> simp [Ph.after, Ph.cur]
  have p4 : s.holders.length = 0 → s.holders = [] := List.length_eq_zero_iff.1
  cases a <;> simp only [step] at hs <;> (repeat' split at hs) <;> (try cases hs)
  all_goals constructor <;> simp only [upd_apply] <;> grind [Ph.obj, Ph.named, Ph.late, Ph.todo, Ph.after, Ph.cur, Pc.holds, Pc.linked]

end Verif.QWait
