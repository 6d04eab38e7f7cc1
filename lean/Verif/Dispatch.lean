/-!
# Dispatching a batch of events while fds are closed and registered

Models `os_mp_dispatch_epoll` (kernel/et_mp.c:115-166), `os_mp_dispatch_poll` (kernel/poll_mp.c:155-197; select_mp.c:144-186 is the same) together with the table of registrations:
`iofd_get` looks an fd number up in one table shared by all queues (kernel/fileobj.c), `__mpq_add_fd_argv` refuses a number that is registered (kernel/iofd.c:307-313) and
`__this_q_close_f`/`__q_del_f` take it out, only on the owning queue (iofd.c:441-482, 519-548).

Between the wait and the dispatch of an event, and inside the callbacks of earlier events, any fds may be closed and registered, here and by other threads: `mid i` is what happens before the
lookup of the `i`-th event, in any order.  The OS gives out a number again once it is closed.
-/

namespace Verif.Dispatch

/-- A registration: its number (counting all registrations of the process) and its queue. Belongs to the model of kernel/et_mp.c:115-166, kernel/poll_mp.c:155-197, select_mp.c:144-186. -/
structure Reg where
  id : Nat
  q : Nat
deriving DecidableEq, Repr

/-- Data of the model of kernel/et_mp.c:115-166, kernel/poll_mp.c:155-197, select_mp.c:144-186. -/
structure World where
  tab : Nat → Option Reg
  next : Nat

/-- An event as the wait reports it: only the fd number and what happened are known.  `id` is a ghost: the registration it was reported for. Belongs to the model of kernel/et_mp.c:115-166, kernel/poll_mp.c:155-197, select_mp.c:144-186. -/
inductive Kind
  /-- AOSL_POLLIN and/or AOSL_POLLOUT -/
  | io
  /-- AOSL_POLLERR or AOSL_POLLHUP (epoll only) -/
  | bad
deriving DecidableEq, Repr

/-- Data of the model of kernel/et_mp.c:115-166, kernel/poll_mp.c:155-197, select_mp.c:144-186. -/
structure Ev where
  fd : Nat
  kind : Kind
  id : Nat
deriving DecidableEq, Repr

/-- What happens between dispatches. Belongs to the model of kernel/et_mp.c:115-166, kernel/poll_mp.c:155-197, select_mp.c:144-186. -/
inductive Op
  | close (fd : Nat)
  | add (fd q : Nat)
deriving DecidableEq, Repr

/-- One such operation. Belongs to the model of kernel/et_mp.c:115-166, kernel/poll_mp.c:155-197, select_mp.c:144-186. -/
def World.op (w : World) : Op → World
  | .close fd => { w with tab := fun n => if n = fd then none else w.tab n }
  | .add fd q => match w.tab fd with
    | some _ => w
    | none => { tab := fun n => if n = fd then some ⟨w.next, q⟩ else w.tab n, next := w.next + 1 }

/-- An effect of the dispatch: the callbacks of a registration run on the dispatching queue's thread, or a registration is closed because of an error. Belongs to the model of kernel/et_mp.c:115-166, kernel/poll_mp.c:155-197, select_mp.c:144-186. -/
inductive Eff
  | call (e : Ev) (r : Reg)
  | closed (e : Ev) (r : Reg)
deriving DecidableEq, Repr

/-- The dispatch of one event on queue `q` (et_mp.c:118-164): an error event runs the event callback and closes the fd (`f_event_and_close`), which `__q_del_f` refuses for another queue's fd. -/
def one (q : Nat) (w : World) (e : Ev) : World × List Eff :=
  match w.tab e.fd with
  | none => (w, [])
  | some r =>
    match e.kind with
    | .io => (w, [.call e r])
    | .bad =>
      if r.q = q then ({ w with tab := fun n => if n = e.fd then none else w.tab n }, [.call e r, .closed e r])
      else (w, [.call e r])

/-- The loop over the events. Belongs to the model of kernel/et_mp.c:115-166, kernel/poll_mp.c:155-197, select_mp.c:144-186. -/
def dispatch (q : Nat) (mid : Nat → List Op) : Nat → World → List Ev → World × List Eff
  | _, w, [] => (w, [])
  | i, w, e :: es =>
    let w1 := (mid i).foldl World.op w
    let r := one q w1 e
    let r' := dispatch q mid (i + 1) r.1 es
    (r'.1, r.2 ++ r'.2)

/-! ## Specification -/

/-- The events of a wait of queue `q`: each is for a registration of that queue. Belongs to the model of kernel/et_mp.c:115-166, kernel/poll_mp.c:155-197, select_mp.c:144-186. -/
def FromWait (q : Nat) (w : World) (es : List Ev) : Prop := ∀ e ∈ es, w.tab e.fd = some ⟨e.id, q⟩

/-- The world of a running program: registration numbers are smaller than the next one. Belongs to the model of kernel/et_mp.c:115-166, kernel/poll_mp.c:155-197, select_mp.c:144-186. -/
def World.Ok (w : World) : Prop := ∀ (fd : Nat) (r : Reg), w.tab fd = some r → r.id < w.next

/-- The effect concerns the registration for which the event was reported, on its own queue. Belongs to the model of kernel/et_mp.c:115-166, kernel/poll_mp.c:155-197, select_mp.c:144-186. -/
def Right (q : Nat) : Eff → Prop
  | .call e r => r.id = e.id ∧ r.q = q
  | .closed e r => r.id = e.id ∧ r.q = q

end Verif.Dispatch
