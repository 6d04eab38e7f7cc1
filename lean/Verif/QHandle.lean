import Verif.IdTable
/-!
  Model of queue handles as machine words: `aosl_mpq_t` is `intptr_t` (include/api/aosl_mpq.h:54-59), the value made of slot and life
  number has 32 bits (kernel/mpq.c:177-190), and the pool calls pass it through an `int` (kernel/mpqp.c:318-326, 368-376, 635-650), as does
  aosl_mpq_main (mpq.c:1804-1811).
  The table itself is the one of `Verif.IdTable` (C18, C19), with its 32-bit handles; `w` is the width of a pointer.
-/
namespace Verif.QHandle
open Verif.IdTable (Tab State)

/-- kernel/mpq.c:177-180 make_mpq_obj_id: the `uint32_t` converted to `intptr_t`; what `q->qid` holds, what aosl_mpq_create and
    aosl_mpq_this return (mpq.c:1044-1062, 1145-1147) -/
def handle (w : Nat) (id : BitVec 32) : BitVec w := id.setWidth w

/-- What the pool calls return for the chosen queue: `int err = q->qid` (kernel/mpqp.c:318-326, 368-376), and that `int` converted back to
    `aosl_mpq_t` by `return err` (635-729). -/
def poolReturn (w : Nat) (qid : BitVec w) : BitVec w := (qid.setWidth 32).signExtend w

/-- kernel/mpq.c:1804-1811 aosl_mpq_main, `q` being the value of the static variable `aosl_main_qid` (an `intptr_t`; -1 without a main queue, 0 while
    one is being created, mpq.c:1784-1792).  The local variable is an `int`; `get_mpq_id` (mpq.c:182-185) is the low 16 bits, MIN_MPQ_ID is 0
    (mpq.c:98); AOSL_MPQ_INVALID is `(aosl_mpq_t) -1`. -/
def mainReturn (w : Nat) (q : BitVec w) : BitVec w :=
  let m : BitVec 32 := q.setWidth 32
  if (m.setWidth 16).toInt < 0 then BitVec.allOnes w else m.signExtend w

/-- `-1`, what they return on failure (mpqp.c:313-316, 363-366, 640) -/
def failure (w : Nat) : BitVec w := (BitVec.allOnes 32).signExtend w

/-- include/api/aosl_mpq.h:59 aosl_mpq_invalid: `(int16_t) mpq < 0` -/
def invalid {w : Nat} (h : BitVec w) : Bool := decide ((h.setWidth 16).toInt < 0)

/-- kernel/mpq.c:235-260 __mpq_get: the low 16 bits select the slot, the whole `intptr_t` is compared with the queue's handle. -/
def get {w : Nat} (t : Tab) (h : BitVec w) : Option Nat :=
  if (h.setWidth 16).toInt < 0 then none
  else if (h.setWidth 16).toInt < t.slots.length then
    match t.slots.getD (h.setWidth 16).toInt.toNat none with
    | some o => if handle w o.id = h then some o.key else none
    | none => none
  else none

/-- kernel/mpqp.c:84-95 __mpqp_find_entry_with_qid_locked, for aosl_mpq_free (1017-1040): is there an entry with this handle? -/
def findEntry {w : Nat} (ids : List (BitVec 32)) (h : BitVec w) : Bool := ids.any fun id => handle w id == h

end Verif.QHandle
