/-!
# What closing and unregistering an fd answer

Models `aosl_close` with `__iofd_close`, `____target_q_close`, `__this_q_close_f`, `____close` (kernel/iofd.c:544-580, 617-668) and `aosl_mpq_del_fd` with
`__iofd_del`, `____target_q_del_fd`, `__q_del_f` (iofd.c:496-527, 670-714), `remove_fd`, `fget` (kernel/fileobj.c:69-100), `__mpq_get_or_this`
(kernel/mpq.c:268-284), the two outcomes of `__mpq_call_argv` (mpq.c:1255-1290, 1511-1514) and `aosl_hal_set_error`, `return_err` (include/kernel/err.h:50-84).

The calling thread finds the object, then the work is done by the thread of the owning queue; what all threads do in between is an arbitrary function.
`put_fd_f` is not modelled: it is read only together with `get_fd_f`, which no caller passes (iofd.c:363-376, C197).  Reference counts are FdTab's.  That
the function handed to the queue runs before a successful call returns is the subject of the queue models.
-/

namespace Verif.CloseApi

/-- `struct iofd` (include/kernel/iofd.h), the fields read here: number, owning queue, whether the not-ready timer is armed, whether it is in its queue's list. -/
structure Obj where
  fd : Option Nat
  q : Nat
  timer : Bool
  linked : Bool
deriving DecidableEq, Repr

/-- The table `attached_fds` (fileobj.c:22) from numbers to objects, the objects, which numbers the platform has open, and the caller's `aosl_errno` (err.h:50). -/
structure St where
  tab : Nat → Option Nat
  obj : Nat → Obj
  opened : Nat → Bool
  errno : Int

/-- What the call meets: the queue of the calling thread (`THIS_MPQ`), whether `__mpq_get` finds the owner (mpq.c:268-278), the error number with which
`__mpq_call_argv` fails (0: it does not), what the other threads do before the owner's thread gets to the work, the answer of `aosl_hal_sk_close` (iofd.c:546). -/
structure Env where
  me : Option Nat
  found : Bool
  callErr : Nat
  between : St → St
  hal : Int

/-- `AOSL_EPERM` (include/api/aosl_errno.h:18). -/
def EPERM : Int := 1001
/-- `AOSL_EBADF` (aosl_errno.h:26). -/
def EBADF : Int := 1009
/-- `AOSL_EINVAL` (aosl_errno.h:39). -/
def EINVAL : Int := 1022
/-- `AOSL_ENONET` (aosl_errno.h:73). -/
def ENONET : Int := 1064

/-- `aosl_hal_set_error` (err.h:52-75): the number for an error of the platform. -/
def halErr (e : Int) : Int :=
  if e = -2002 then -1004 else if e = -2001 then -1011 else if e = -2003 then -1115 else -2000

/-- `return_err` (err.h:77-84): an error value becomes -1 with `aosl_errno`, any other value is returned as it is. -/
def returnErr (r : Int × St) : Int × St :=
  if -4095 ≤ r.1 ∧ r.1 < 0 then (-1, { r.2 with errno := -r.1 }) else r

/-- `____close` (iofd.c:544-552); the `aosl_errno` it sets is set again, to the same number, by `return_err` if it is the caller's. -/
def osClose (s : St) (e : Env) (fd : Nat) : Int × St :=
  if e.hal < 0 then (halErr e.hal, s)
  else (e.hal, { s with opened := fun x => if x = fd then false else s.opened x })

/-- The field update of one object, `f->… = …` (iofd.c:503-509, 523, 577). -/
def setObj (s : St) (id : Nat) (o : Obj) : St := { s with obj := fun x => if x = id then o else s.obj x }

/-- `__q_del_f` (iofd.c:496-527) with `remove_fd` (fileobj.c:69-82), on queue `q`; the answer of `os_del_event_fd` is only logged. -/
def qDel (s : St) (q id : Nat) : Int × St :=
  let o := s.obj id
  if o.q ≠ q then (-EPERM, s)
  else
    let o1 : Obj := { o with timer := false }
    match o.fd with
    | none => (-ENONET, setObj s id o1)
    | some fd =>
      let s1 : St := { setObj s id o1 with tab := fun x => if x = fd then none else s.tab x }
      if s.tab fd = some id then (0, setObj s1 id { o1 with linked := false })
      else (-ENONET, s1)

/-- `__this_q_close_f` (iofd.c:554-580). -/
def thisQClose (s : St) (e : Env) (q id : Nat) : Int × St :=
  let r := qDel s q id
  if r.1 < 0 then r
  else
    match (s.obj id).fd with
    | none => r
    | some fd =>
      let c := osClose r.2 e fd
      (c.1, setObj c.2 id { c.2.obj id with fd := none })

/-- The way to the owner's thread (iofd.c:641-658, 693-704): no such queue; the calling thread is the owner's and works at once (mpq.c:1260-1286); the
call does not get in and `err` is the positive `aosl_errno` (iofd.c:655, 702); the owner's thread works later. -/
def viaQueue (s : St) (e : Env) (id : Nat) (work : St → Nat → Int × St) : Int × St :=
  let q := (s.obj id).q
  if e.me = some q then work s q
  else if !e.found then (-EINVAL, s)
  else if e.callErr ≠ 0 then ((e.callErr : Int), s)
  else work (e.between s) q

/-- `aosl_close` (iofd.c:629-668): an fd that is not registered is simply closed. -/
def aoslClose (s : St) (e : Env) (fd : Nat) : Int × St :=
  returnErr (match s.tab fd with
    | none => osClose s e fd
    | some id => viaQueue s e id (fun s q => thisQClose s e q id))

/-- `aosl_mpq_del_fd` (iofd.c:682-714). -/
def aoslDel (s : St) (e : Env) (fd : Nat) : Int × St :=
  returnErr (match s.tab fd with
    | none => (-EBADF, s)
    | some id => viaQueue s e id (fun s q => qDel s q id))

end Verif.CloseApi
