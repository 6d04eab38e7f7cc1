import Verif.Bitmap
/-!
  Model of the handle tables: kernel/refobj.c:28-194, 500-560, kernel/timer.c:29-260 and
  kernel/mpq.c:33-290 contain the same code up to names; they differ in the configured maximum only
  (20480, 20480, 2048), which is the parameter `max`.

  Every function below runs under the table's write lock (read lock for `get`) and is one atomic step.
  Objects are identified by a natural number (`key`), standing for their address.
-/
namespace Verif.IdTable
open Verif.Bitmap (Bitmap)

/-- An installed object: its identity and the handle stored in it (obj_id / qid). Belongs to the model of kernel/refobj.c:28-194, 500-560, kernel/timer.c:29-260, kernel/mpq.c:33-290. -/
structure Obj where
  key : Nat
  id : BitVec 32
  deriving DecidableEq, Repr

/-- refobj.c:31-36 the static variables of a table. -/
structure Tab where
  bits : Bitmap
  slots : List (Option Obj)
  life : BitVec 16
  deriving DecidableEq, Repr

/-- refobj.c:28, 38-52 -/
def Tab.init : Tab := ⟨⟨[0#8], 8⟩, List.replicate 8 none, 1⟩

/-- The cases distinguished in the model of kernel/refobj.c:28-194, 500-560, kernel/timer.c:29-260, kernel/mpq.c:33-290. -/
inductive AllocR where
  | ok (slot : Nat)
  | eoverflow
  | enomem
  | bug
  deriving DecidableEq, Repr

/-- refobj.c:124-127 -/
def Tab.take (t : Tab) (r : Int) : AllocR × Tab :=
  if r < 0 then (.bug, t) else (.ok r.toNat, { t with bits := t.bits.set r.toNat })

/-- refobj.c:78-128 get_unused_refobj_id, timer.c:76-127, mpq.c:100-151. `mem` says whether the two
    allocations succeed; `bitmap_create` also fails by itself when the size is 0 as a uint8_t. -/
def Tab.alloc (max : Nat) (mem : Bool) (t : Tab) : AllocR × Tab :=
  let r := t.bits.findFirstZero
  if r < 0 then
    if t.slots.length ≥ max then (.eoverflow, t)
    else if mem = false then (.enomem, t)
    else
      match Bitmap.create (t.slots.length + 8) with
      | none => (.enomem, t)
      | some nb =>
        match nb.copy t.bits with
        | .val nb' =>
          let t' : Tab := { t with bits := nb', slots := t.slots ++ List.replicate 8 none }
          t'.take t'.bits.findFirstZero
        | _ => (.bug, t)
  else t.take r

/-- refobj.c:138-141 make_ref_obj_id; the slot number is never negative here. -/
def mkId (slot : Nat) (life : BitVec 16) : BitVec 32 :=
  (life.setWidth 32 <<< 16) ||| (BitVec.ofNat 16 slot).signExtend 32

/-- refobj.c:143-146 get_ref_id, an int16_t -/
def refId (id : BitVec 32) : Int := (id.truncate 16 : BitVec 16).toInt

/-- refobj.c:165-172 -/
def nextLife (l : BitVec 16) : BitVec 16 := if l + 1 = 0 then 1 else l + 1

/-- refobj.c:153-175 __refobj_id_install; `none` is an abort. -/
def Tab.install (t : Tab) (slot key : Nat) : Option (BitVec 32 × Tab) :=
  if slot ≥ t.slots.length then none
  else match t.slots.getD slot none with
    | some _ => none
    | none =>
      let id := mkId slot t.life
      some (id, { t with slots := t.slots.set slot (some ⟨key, id⟩), life := nextLife t.life })

/-- refobj.c:177-194 __refobj_id_uninstall; `none` is an abort, `some (false, _)` is -EINVAL. -/
def Tab.uninstall (t : Tab) (slot key : Nat) : Option (Bool × Tab) :=
  if slot ≥ t.slots.length then none
  else match t.slots.getD slot none with
    | some o => if o.key = key then some (true, { t with slots := t.slots.set slot none }) else some (false, t)
    | none => some (false, t)

/-- refobj.c:130-136 __put_unused_refobj_id; `none` is an abort. -/
def Tab.putId (t : Tab) (slot : Nat) : Option Tab :=
  if slot ≥ t.slots.length then none else some { t with bits := t.bits.clear slot }

/-- refobj.c:528-551 the table part of __refobj_get -/
def Tab.get (t : Tab) (id : BitVec 32) : Option Nat :=
  if refId id < 0 then none
  else if refId id < t.slots.length then
    match t.slots.getD (refId id).toNat none with
    | some o => if o.id = id then some o.key else none
    | none => none
  else none

/-! ### Life of the objects of one table -/

/-- Where an object is in its life (slot, handle). The order is the program order of
    refobj_create (489: install after 483: reserve), aosl_ref_destroy (895: uninstall, 931/959: drop the
    references) and refobj_free (506-514: destructors, then 524: release of the slot).
    That the destructors run only after the uninstall is the reference counting of module RefObj. -/
inductive Phase where
  | reserved (slot : Nat)
  | live (slot : Nat) (id : BitVec 32)
  | removed (slot : Nat) (id : BitVec 32)
  | dead (slot : Nat) (id : BitVec 32)
  | freed (slot : Nat) (id : BitVec 32)
  deriving DecidableEq, Repr

/-- The calls and events of the model of kernel/refobj.c:28-194, 500-560, kernel/timer.c:29-260, kernel/mpq.c:33-290. -/
inductive Op where
  /-- first half of a creation; `mem`: the allocations succeed -/
  | reserve (k : Nat) (mem : Bool)
  /-- second half of a creation -/
  | install (k : Nat)
  /-- destroy -/
  | uninstall (k : Nat)
  /-- the destructors run -/
  | dtor (k : Nat)
  /-- the slot is released -/
  | release (k : Nat)
  deriving DecidableEq, Repr

/-- Data of the model of kernel/refobj.c:28-194, 500-560, kernel/timer.c:29-260, kernel/mpq.c:33-290. -/
structure State where
  tab : Tab
  phase : Nat → Option Phase
  /-- handles returned by the creations so far, oldest first -/
  log : List (Nat × BitVec 32)
  dtors : Nat → Nat
  aborted : Bool

/-- The state at the beginning, in the model of kernel/refobj.c:28-194, 500-560, kernel/timer.c:29-260, kernel/mpq.c:33-290. -/
def State.init : State := ⟨Tab.init, fun _ => none, [], fun _ => 0, false⟩

/-- A table changed at one place, as an assignment to one element or one object does; used in the model of kernel/refobj.c:28-194, 500-560, kernel/timer.c:29-260, kernel/mpq.c:33-290. -/
def upd {α : Type} (f : Nat → α) (k : Nat) (v : α) : Nat → α := fun j => if j = k then v else f j

/-- One atomic step; a step that the program order does not allow changes nothing. Belongs to the model of kernel/refobj.c:28-194, 500-560, kernel/timer.c:29-260, kernel/mpq.c:33-290. -/
def State.step (max : Nat) (s : State) : Op → State
  | .reserve k mem =>
    match s.phase k with
    | none =>
      match s.tab.alloc max mem with
      | (.ok slot, t) => { s with tab := t, phase := upd s.phase k (some (.reserved slot)) }
      | (.bug, _) => { s with aborted := true }
      | (_, t) => { s with tab := t }
    | some _ => s
  | .install k =>
    match s.phase k with
    | some (.reserved slot) =>
      match s.tab.install slot k with
      | none => { s with aborted := true }
      | some (id, t) => { s with tab := t, phase := upd s.phase k (some (.live slot id)), log := s.log ++ [(k, id)] }
    | _ => s
  | .uninstall k =>
    match s.phase k with
    | some (.live _ id) | some (.removed _ id) =>
      match s.tab.uninstall (refId id).toNat k with
      | none => { s with aborted := true }
      | some (true, t) => { s with tab := t, phase := upd s.phase k (some (.removed (refId id).toNat id)) }
      | some (false, t) => { s with tab := t }
    | _ => s
  | .dtor k =>
    match s.phase k with
    | some (.removed slot id) => { s with phase := upd s.phase k (some (.dead slot id)), dtors := upd s.dtors k (s.dtors k + 1) }
    | _ => s
  | .release k =>
    match s.phase k with
    | some (.dead slot id) =>
      match s.tab.putId (refId id).toNat with
      | none => { s with aborted := true }
      | some t => { s with tab := t, phase := upd s.phase k (some (.freed slot id)) }
    | _ => s

/-- One event after the other, in the model of kernel/refobj.c:28-194, 500-560, kernel/timer.c:29-260, kernel/mpq.c:33-290; no code of its own. -/
def run (max : Nat) (s : State) (ops : List Op) : State := ops.foldl (State.step max) s

end Verif.IdTable
