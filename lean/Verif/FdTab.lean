/-!
# The table of registered fds and the life of the fd objects

Models kernel/fileobj.c:44-110 (`install_fd`, `remove_fd`, `fget`, `fput`) and the functions of kernel/iofd.c that add and remove
fds: `__mpq_add_fd_argv` (iofd.c:314-321, 379-398), `__q_add_fd` (iofd.c:62-71), `__q_del_f` (iofd.c:468-497), `__mpq_del_fd`
(iofd.c:499-512), `__this_q_close_f` (iofd.c:553-580), `mpq_fini_iofds` (iofd.c:598-610), `aosl_mpq_fd_arg`, `aosl_write` and the event dispatch as users
that get and put references (iofd.c:776-821, et_mp.c:129-160).

One action is one operation done under `fds_lock`, or one done by the queue's own thread; actions of all threads are interleaved
arbitrarily.  The red-black tree (C01-C07) is a function from fds to objects.  `EEXIST` (from the first look-up,
iofd.c:314-319) and `EBUSY` (from `install_fd`) are told apart by a flag, since only the moment of the look-up differs.
`install_fd` and `__q_add_fd` are run by the queue's own thread one after the other, so that thread cannot delete an object it has not linked yet.  `life_id` is not modelled (it is never read).
-/

namespace Verif.FdTab

/-- Who owns the reference with which the object was created. -/
inductive Phase
  /-- installed in the table, not yet in a queue's list (between `install_fd` and `__q_add_fd`, iofd.c:388-394) -/
  | fresh
  /-- in the queue's list -/
  | linked
  /-- the initial reference has been dropped -/
  | dropped
deriving DecidableEq, Repr

/-- `struct file_obj` and the part of `struct iofd` that matters here (include/kernel/fileobj.h, iofd.h:91-100).  `freed` counts how often it was destroyed. -/
structure Obj where
  fd : Option Nat
  q : Nat
  usage : Nat
  phase : Phase
  freed : Nat
deriving DecidableEq, Repr

/-- The objects ever created, the table `attached_fds`, the references held by callers (`fget` not yet matched by `fput`), the fds closed by
`____close`, a flag for a use of a destroyed object. Belongs to the model of kernel/fileobj.c:44-110, iofd.c:314-321, 379-398, iofd.c:62-71. -/
structure St where
  objs : List Obj
  tab : List (Nat × Nat)
  holds : List Nat
  closed : List Nat
  bad : Bool
deriving DecidableEq, Repr

/-- The state at the beginning, in the model of kernel/fileobj.c:44-110, iofd.c:314-321, 379-398, iofd.c:62-71. -/
def init : St := ⟨[], [], [], [], false⟩

/-- `aosl_find_rb_node` in `attached_fds`. Belongs to the model of kernel/fileobj.c:44-110, iofd.c:314-321, 379-398, iofd.c:62-71. -/
def find (tab : List (Nat × Nat)) (fd : Nat) : Option Nat := (tab.find? (fun p => p.1 == fd)).map (·.2)

/-- `aosl_rb_remove` by fd. Belongs to the model of kernel/fileobj.c:44-110, iofd.c:314-321, 379-398, iofd.c:62-71. -/
def erase (tab : List (Nat × Nat)) (fd : Nat) : List (Nat × Nat) := tab.filter (fun p => p.1 != fd)

/-- Error numbers (include/api/aosl_errno.h). Belongs to the model of kernel/fileobj.c:44-110, iofd.c:314-321, 379-398, iofd.c:62-71. -/
def eOK : Int := 0
/-- A constant of the model of kernel/fileobj.c:44-110, iofd.c:314-321, 379-398, iofd.c:62-71. -/
def ePERM : Int := -1001
/-- A constant of the model of kernel/fileobj.c:44-110, iofd.c:314-321, 379-398, iofd.c:62-71. -/
def eNOENT : Int := -1002
/-- A constant of the model of kernel/fileobj.c:44-110, iofd.c:314-321, 379-398, iofd.c:62-71. -/
def eBUSY : Int := -1016
/-- A constant of the model of kernel/fileobj.c:44-110, iofd.c:314-321, 379-398, iofd.c:62-71. -/
def eEXIST : Int := -1017
/-- A constant of the model of kernel/fileobj.c:44-110, iofd.c:314-321, 379-398, iofd.c:62-71. -/
def eNONET : Int := -1064

/-- The calls and events of the model of kernel/fileobj.c:44-110, iofd.c:314-321, 379-398, iofd.c:62-71. -/
inductive Op
  /-- registration up to `install_fd`; `raced`: the first look-up had not found it -/
  | install (fd q : Nat) (raced : Bool)
  /-- `__q_add_fd` succeeded -/
  | attach (id : Nat)
  /-- `__q_add_fd` failed: `remove_fd`, `aosl_free` -/
  | abort (id : Nat)
  /-- `fget` -/
  | get (fd : Nat)
  /-- `fput` by a caller of `fget` -/
  | put (id : Nat)
  /-- `__q_del_f (q, f)` by a caller that holds a reference -/
  | del (id q : Nat)
  /-- `__this_q_close_f (q, f)` by a caller that holds a reference -/
  | close (id q : Nat)
  /-- one iteration of `mpq_fini_iofds (q)` with `id` at the head of the queue's list -/
  | fini (id q : Nat)
deriving DecidableEq, Repr

/-- `fput` (fileobj.c:103-110) on the object: the last reference destroys it. -/
def decUsage (o : Obj) : Obj := if o.usage = 1 then { o with usage := 0, freed := o.freed + 1 } else { o with usage := o.usage - 1 }

/-- The use of an object that was destroyed is recorded. Belongs to the model of kernel/fileobj.c:44-110, iofd.c:314-321, 379-398, iofd.c:62-71. -/
def touch (s : St) (o : Obj) : St := { s with bad := s.bad || decide (0 < o.freed) }

/-- `__q_del_f` (iofd.c:468-497) with `remove_fd` (fileobj.c:68-82). -/
def qDel (s : St) (id q : Nat) (o : Obj) : St × Int :=
  if o.q ≠ q then (s, ePERM)
  else match o.fd with
    | none => (s, eNONET)
    | some fd =>
      let s' := { s with tab := erase s.tab fd }
      if find s.tab fd = some id then
        ({ s' with objs := s'.objs.set id (decUsage { o with phase := .dropped }) }, eOK)
      else (s', eNONET)

/-- `__this_q_close_f` (iofd.c:553-580) for a caller that holds a reference. -/
def qClose (s : St) (id q : Nat) (o : Obj) : St × Int :=
  let r := qDel s id q o
  if r.2 < 0 then r
  else match o.fd with
    | none => r
    | some fd =>
      ({ r.1 with
        objs := r.1.objs.set id { decUsage { o with phase := .dropped } with fd := none },
        closed := r.1.closed ++ [fd] }, eOK)

/-- One action; `none` if it cannot happen in this state (no such reference, no such object in that phase). Belongs to the model of kernel/fileobj.c:44-110, iofd.c:314-321, 379-398, iofd.c:62-71. -/
def step (s : St) : Op → Option (St × Int)
  | .install fd q raced =>
    match find s.tab fd with
    | some _ => some (s, if raced then eBUSY else eEXIST)
    | none => some ({ s with objs := s.objs ++ [⟨some fd, q, 1, .fresh, 0⟩], tab := (fd, s.objs.length) :: s.tab }, eOK)
  | .attach id =>
    match s.objs[id]? with
    | none => none
    | some o => if o.phase = .fresh then some ({ touch s o with objs := s.objs.set id { o with phase := .linked } }, eOK) else none
  | .abort id =>
    match s.objs[id]? with
    | none => none
    | some o =>
      if o.phase = .fresh then
        some ({ touch s o with
          objs := s.objs.set id { o with phase := .dropped, freed := o.freed + 1, usage := o.usage - 1 },
          tab := match o.fd with
            | some fd => erase s.tab fd
            | none => s.tab }, -1)
      else none
  | .get fd =>
    match find s.tab fd with
    | none => some (s, eNOENT)
    | some id =>
      match s.objs[id]? with
      | none => some ({ s with bad := true }, eOK)
      | some o => some ({ touch s o with objs := s.objs.set id { o with usage := o.usage + 1 }, holds := id :: s.holds }, eOK)
  | .put id =>
    if id ∈ s.holds then
      match s.objs[id]? with
      | none => none
      | some o => some ({ touch s o with objs := s.objs.set id (decUsage o), holds := s.holds.erase id }, eOK)
    else none
  | .del id q =>
    if id ∈ s.holds then
      match s.objs[id]? with
      | none => none
      | some o => if o.phase = .fresh ∧ o.q = q then none else some (qDel (touch s o) id q o)
    else none
  | .close id q =>
    if id ∈ s.holds then
      match s.objs[id]? with
      | none => none
      | some o => if o.phase = .fresh ∧ o.q = q then none else some (qClose (touch s o) id q o)
    else none
  | .fini id q =>
    match s.objs[id]? with
    | none => none
    | some o =>
      if o.phase = .linked ∧ o.q = q then
        -- `__iofd_get (f)` ... `iofd_put (f)` around it
        let r := qClose (touch s o) id q { o with usage := o.usage + 1 }
        if r.2 < 0 then some ({ r.1 with objs := s.objs }, r.2)
        else
          match r.1.objs[id]? with
          | none => none
          | some o' => some ({ r.1 with objs := r.1.objs.set id (decUsage o') }, eOK)
      else none

/-- A history; `none` if some action was not possible. Belongs to the model of kernel/fileobj.c:44-110, iofd.c:314-321, 379-398, iofd.c:62-71. -/
def run : St → List Op → Option (St × List Int)
  | s, [] => some (s, [])
  | s, op :: ops =>
    match step s op with
    | none => none
    | some (s', r) => (run s' ops).map (fun x => (x.1, r :: x.2))

end Verif.FdTab
