/-!
# Registering an fd: every way a registration call can end

Models `__mpq_add_fd_argv` (kernel/iofd.c:294-408) with `__q_add_fd` (iofd.c:63-72), `make_fd_nb_clex` (iofd.c:45-52), `install_fd` and `remove_fd`
(kernel/fileobj.c:44-83), the functions built on it: `aosl_mpq_add_fd`, `aosl_mpq_add_fd_on_q` (iofd.c:410-494) and, in net/sk_utils.c, `aosl_mpq_connect`,
`aosl_mpq_connect_on_q` (210-351), `aosl_mpq_listen`, `aosl_mpq_listen_on_q` (353-445), `aosl_mpq_add_dgram_socket`, `aosl_mpq_add_dgram_socket_on_q` (446-533),
`aosl_mpq_add_stream_socket`, `aosl_mpq_add_stream_socket_on_q` (535-628); `__do_connect` (210-231), `__mpq_del_fd` (iofd.c:529-542), `__q_del_f` (iofd.c:496-527);
and for the connection that is under way `__iofd_write_data` (iofd.c:211-248, an fd with nothing queued), `__iofd_not_ready_timeout` (iofd.c:275-292),
`f_event_and_close` (iofd.c:582-597) and `__this_q_close_f` (iofd.c:554-580).

All of this runs on the thread of the queue that gets the fd, so one call is one step; the platform's answers are given in an environment.  Simplifications: the
reference counts of the objects are those of FdTab (C54); a call to another queue that fails has not run the function (C41); the buffers and callbacks of a
registration are those of IoRead and IoWrite and are left out; fds are all integers, -1 is AOSL_INVALID_FD (aosl_hal_types.h:34-40).
-/

namespace Verif.FdReg

/-- What is known of a registered fd (`struct iofd`, include/kernel/iofd.h:91-130): its queue, the user's arguments, whether there is an event function,
IOFD_NOT_READY, IOFD_SOCK_LISTEN, the time-out timer. -/
structure Reg where
  q : Nat
  args : List Nat
  ev : Bool
  notReady : Bool
  lst : Bool
  timer : Bool
deriving DecidableEq, Repr

/-- `tab`: the table `attached_fds`; `polled`: the pollers of the queues; `lists`: the lists `q->iofds`; `blocks`: the `struct iofd` in memory; `timers`: the
pending time-out timers with their fd and expiry; `nonblock`, `listening`, `closed`: what was done to the fds; `told`: the events passed to the event
functions, latest first. Belongs to the model of kernel/iofd.c:294-408, iofd.c:63-72, iofd.c:45-52. -/
structure St where
  tab : List (Int × Reg)
  polled : List (Nat × Int)
  lists : List (Nat × Int)
  blocks : Nat
  timers : List (Int × Nat)
  nonblock : List Int
  listening : List Int
  closed : List Int
  told : List (Int × Int)
deriving DecidableEq, Repr

/-- `aosl_find_rb_node` in `attached_fds` (fileobj.c:52, 92). -/
def St.find (s : St) (fd : Int) : Option Reg := (s.tab.find? (fun p => p.1 == fd)).map (·.2)

/-- include/api/aosl_errno.h:18-133 -/
def EPERM : Int := 1001
/-- A constant of the model of kernel/iofd.c:294-408, iofd.c:63-72, iofd.c:45-52. -/
def E2BIG : Int := 1007
/-- A constant of the model of kernel/iofd.c:294-408, iofd.c:63-72, iofd.c:45-52. -/
def ENOMEM : Int := 1012
/-- A constant of the model of kernel/iofd.c:294-408, iofd.c:63-72, iofd.c:45-52. -/
def EEXIST : Int := 1017
/-- A constant of the model of kernel/iofd.c:294-408, iofd.c:63-72, iofd.c:45-52. -/
def EINVAL : Int := 1022
/-- A constant of the model of kernel/iofd.c:294-408, iofd.c:63-72, iofd.c:45-52. -/
def ETIMEDOUT : Int := 1110
/-- A constant of the model of kernel/iofd.c:294-408, iofd.c:63-72, iofd.c:45-52. -/
def READY : Int := 1

/-- `aosl_hal_set_error` (include/kernel/err.h:52-75) on the platform's answers (aosl_hal_errno.h:16-21). -/
def halErr (r : Int) : Int :=
  if r < 0 then (if r = -2002 then -1004 else if r = -2001 then -1011 else if r = -2003 then -1115 else -2000) else 0

/-- `return_err` (include/kernel/err.h:77-84; MAX_ERRNO is 4095): what the caller of the API gets. -/
def retErr (e : Int) : Int := if -4095 ≤ e ∧ e < 0 then -1 else e

/-- What the event function does when it is told that the connection is ready. Belongs to the model of kernel/iofd.c:294-408, iofd.c:63-72, iofd.c:45-52. -/
inductive Cb
  | leave
  | del
  | close
deriving DecidableEq, Repr

/-- What the platform answers during one call.  `mem`: is there memory for the object; `poll`: the answer of the poller's add; `timerOk`: can a timer be made;
`now`: the tick; `listen`, `connect`: the answers of the socket calls; `nb`: does making the fd non-blocking succeed; `cb`: what the event function does. Belongs to the model of kernel/iofd.c:294-408, iofd.c:63-72, iofd.c:45-52. -/
structure Env where
  mem : Bool
  poll : Int
  timerOk : Bool
  now : Nat
  listen : Int
  connect : Int
  nb : Bool
  cb : Cb
deriving DecidableEq, Repr

/-- The functions that register. Belongs to the model of kernel/iofd.c:294-408, iofd.c:63-72, iofd.c:45-52. -/
inductive Kind
  | fd
  | stream
  | dgram
  | listen
  | connect (timeo : Int)
deriving DecidableEq, Repr

/-- The arguments of the caller. `chk`: a packet check function is given; `data`: the data (or accepted) function is not NULL; `ev`: an event function is given. Belongs to the model of kernel/iofd.c:294-408, iofd.c:63-72, iofd.c:45-52. -/
structure Par where
  fd : Int
  size : Nat
  chk : Bool
  data : Bool
  ev : Bool
  args : List Nat
deriving DecidableEq, Repr

/-- The queue: its number, and whether it was made with AOSL_MPQ_FLAG_SIGP_EVENT. Belongs to the model of kernel/iofd.c:294-408, iofd.c:63-72, iofd.c:45-52. -/
structure Q where
  id : Nat
  sig : Bool
deriving DecidableEq, Repr

/-- Undefined behaviour (`get_fd_f`, a variadic argument that was never passed, is called; or arguments are read beyond all memory), or an answer. Belongs to the model of kernel/iofd.c:294-408, iofd.c:63-72, iofd.c:45-52. -/
inductive Out
  | ub
  | ok (r : Int) (s : St)
deriving DecidableEq, Repr

/-- `remove_fd` (fileobj.c:67-83), `os_del_event_fd`, `aosl_list_del`, the free of the object and the kill of its timer: `__q_del_f` (iofd.c:496-527) on an fd
that is registered with `q`. -/
def qDel (s : St) (q : Nat) (fd : Int) : St :=
  { s with
    tab := s.tab.filter (fun p => p.1 != fd)
    polled := s.polled.filter (· != (q, fd))
    lists := s.lists.filter (· != (q, fd))
    blocks := s.blocks - 1
    timers := s.timers.filter (fun p => p.1 != fd) }

/-- `__this_q_close_f` (iofd.c:554-580): as `__q_del_f`, then the fd is closed (iofd.c:544-552). -/
def qClose (s : St) (q : Nat) (fd : Int) : St :=
  let s := qDel s q fd
  { s with closed := fd :: s.closed }

/-- `__mpq_add_fd_argv` (iofd.c:294-408): `extra` bytes, flags `notReady` and `lst`, time-out `timeo`. -/
def addFd (s : St) (e : Env) (q : Q) (p : Par) (chk : Bool) (extra : Nat) (notReady lst : Bool) (timeo : Int) : Out :=
  -- iofd.c:304-305
  if q.sig then .ok (-EPERM) s else
  -- iofd.c:307-308
  if (chk && p.size < 1024) || p.size > 4194304 then .ok (-EINVAL) s else
  -- iofd.c:310-311
  if extra ≥ 4096 then .ok (-EINVAL) s else
  -- iofd.c:313-314
  if !p.data then .ok (-EINVAL) s else
  -- iofd.c:316-322
  if p.fd ≠ -1 ∧ (s.find p.fd).isSome then .ok (-EEXIST) s else
  -- iofd.c:327-329
  if !e.mem then .ok (-ENOMEM) s else
  -- iofd.c:363-376: get_fd_f and put_fd_f are read from arguments nobody passes
  if p.fd = -1 then .ub else
  -- iofd.c:389, the answer is ignored
  let s := if e.nb && !(s.nonblock.contains p.fd) then { s with nonblock := p.fd :: s.nonblock } else s
  -- install_fd (fileobj.c:44-64): the fd is not in the table and not invalid
  let armed := notReady && decide (timeo ≥ 0) && e.timerOk
  let s1 := { s with tab := (p.fd, ⟨q.id, p.args, p.ev, notReady, lst, armed⟩) :: s.tab, blocks := s.blocks + 1 }
  -- __q_add_fd (iofd.c:63-72, 397-402)
  if e.poll < 0 then
    .ok (halErr e.poll) { s1 with tab := s1.tab.filter (fun p' => p'.1 != p.fd), blocks := s1.blocks - 1 }
  else
    let s2 := { s1 with polled := (q.id, p.fd) :: s1.polled, lists := s1.lists ++ [(q.id, p.fd)] }
    -- iofd.c:404-405
    .ok 0 (if armed then { s2 with timers := (p.fd, e.now + timeo.toNat) :: s2.timers } else s2)

/-- Set the state of a registered fd. Belongs to the model of kernel/iofd.c:294-408, iofd.c:63-72, iofd.c:45-52. -/
def upd (s : St) (fd : Int) (f : Reg → Reg) : St := { s with tab := s.tab.map (fun p => if p.1 == fd then (p.1, f p.2) else p) }

/-- `__iofd_write_data` (iofd.c:211-248) on an fd with nothing queued: no longer "not ready", the timer is killed, the event function is told. -/
def ready (s : St) (fd : Int) (cb : Cb) : St :=
  match s.find fd with
  | none => s
  | some r =>
    let s := if r.notReady then { upd s fd (fun r => { r with notReady := false, timer := false }) with timers := s.timers.filter (fun p => p.1 != fd) } else s
    if r.ev then
      let s := { s with told := (fd, READY) :: s.told }
      match cb with
      | .leave => s
      | .del => qDel s r.q fd
      | .close => qClose s r.q fd
    else s

/-- `__do_connect` (sk_utils.c:210-231) and the rest of `__this_q_connect_argv` (sk_utils.c:233-250), the fd being registered. -/
def doConnect (s : St) (e : Env) (q : Nat) (p : Par) : Out :=
  if e.connect < 0 then
    if e.connect = -2003 then .ok 0 s
    -- __mpq_del_fd (q, fd), sk_utils.c:244
    else .ok (halErr e.connect) (qDel s q p.fd)
  else .ok 0 (ready s p.fd e.cb)

/-- What runs on the queue: `__mpq_add_fd_argv` with the arguments each kind gives it (iofd.c:437; sk_utils.c:238, 352-364, 447-452, 535-541). -/
def onQueue (s : St) (e : Env) (q : Q) (p : Par) : Kind → Out
  | .fd => addFd s e q p p.chk 0 false false (-1)
  | .stream => addFd s e q p p.chk 0 false false (-1)
  -- sizeof (struct recvfrom_args), sk_utils.c:450
  | .dgram => addFd s e q p false 64 false false (-1)
  | .listen =>
    if e.listen < 0 then .ok (halErr e.listen) s
    -- sizeof (aosl_accept_data_t), sk_utils.c:362
    else addFd { s with listening := p.fd :: s.listening } e q { p with size := 64 } false 0 false true (-1)
  | .connect timeo =>
    match addFd s e q p p.chk 0 true false timeo with
    | .ub => .ub
    | .ok r s => if r < 0 then .ok r s else doConnect s e q.id p

/-- The API calls on the current queue (iofd.c:410-438; sk_utils.c:252-284, 366-396, 454-484, 543-575).  `q`: the thread's queue, which may not be there and
not be made. -/
def call (s : St) (e : Env) (q : Option Q) (p : Par) (k : Kind) : Out :=
  if p.args.length > 64 then .ok (retErr (-E2BIG)) s else
  match q with
  | none => .ok (retErr (-EINVAL)) s
  | some q =>
    match onQueue s e q p k with
    | .ub => .ub
    | .ok r s => .ok (retErr r) s

/-- The arguments that arrive at the target queue: `aosl_mpq_connect_on_q` passes one less than there are (sk_utils.c:329 and 300), and without arguments the
count wraps around. -/
def carried (k : Kind) (args : List Nat) : Option (List Nat) :=
  match k with
  | .connect _ => if args = [] then none else some args.dropLast
  | _ => some args

/-- The `_on_q` calls (iofd.c:457-494; sk_utils.c:306-351, 415-445, 502-533, 592-628).  `q`: the queue the handle means, if any; `callErr`: 0 or the error number
with which the call to the queue fails.  `aosl_mpq_add_fd_on_q` forgets the minus sign (iofd.c:489). -/
def callOn (s : St) (e : Env) (q : Option Q) (p : Par) (k : Kind) (callErr : Nat) : Out :=
  if p.args.length > 64 then .ok (retErr (-E2BIG)) s else
  match q with
  | none => .ok (retErr (-EINVAL)) s
  | some q =>
    if callErr ≠ 0 then .ok (retErr (if k = .fd then (callErr : Int) else -(callErr : Int))) s
    else
      match carried k p.args with
      | none => .ub
      | some args =>
        match onQueue s e q { p with args := args } k with
        | .ub => .ub
        | .ok r s => .ok (retErr r) s

/-! ## A connection under way -/

/-- What happens to an fd after its connect was begun, all on the queue's thread: the poller says it can be written (the connection is there); the poller or the
socket reports the error `e` (et_mp.c:140-156); the time is `t` and the timers that are due run; the user unregisters or closes the fd.  `cb`: what the event
function does when told. -/
inductive Op
  | writable (cb : Cb)
  | error (e : Int) (cb : Cb)
  | time (t : Nat) (cb : Cb)
  | del
  | close
deriving DecidableEq, Repr

/-- `f_event_and_close` (iofd.c:582-597): tell, then close what is still there. -/
def eventClose (s : St) (fd : Int) (r : Reg) (err : Int) (cb : Cb) : St :=
  if r.ev then
    let s := { s with told := (fd, err) :: s.told }
    match cb with
    | .leave => qClose s r.q fd
    -- the fd is no longer registered, remove_fd fails and nothing is closed (iofd.c:560-564)
    | .del => qDel s r.q fd
    | .close => qClose s r.q fd
  else qClose s r.q fd

/-- `__iofd_not_ready_timeout` (iofd.c:275-292), run by the timer of `fd`.  `f_event_and_close` has killed the timer already, or the timer is killed here. -/
def timeout (s : St) (fd : Int) (cb : Cb) : St :=
  match s.find fd with
  | none => s
  | some r =>
    let s := if r.notReady then eventClose s fd r (-ETIMEDOUT) cb else s
    { upd s fd (fun r => { r with timer := false }) with timers := s.timers.filter (fun p => p.1 != fd) }

/-- One event in the life of `fd`. -/
def step (fd : Int) (s : St) : Op → St
  | .writable cb => ready s fd cb
  | .error e cb =>
    match s.find fd with
    | none => s
    | some r => eventClose s fd r e cb
  -- the one-shot timers that are due (C28-C30): run and gone
  | .time t cb => if s.timers.any (fun p => p.1 == fd && decide (p.2 ≤ t)) then timeout s fd cb else s
  | .del =>
    match s.find fd with
    | none => s
    | some r => qDel s r.q fd
  -- __iofd_close (iofd.c:631-663)
  | .close =>
    match s.find fd with
    | none => { s with closed := fd :: s.closed }
    | some r => qClose s r.q fd

/-- One event after the other, in the model of kernel/iofd.c:294-408, iofd.c:63-72, iofd.c:45-52; no code of its own. -/
def run (fd : Int) (s : St) (ops : List Op) : St := ops.foldl (step fd) s

/-! ## Histories -/

/-- What can be done: a registration call, one for another queue, something that happens to an fd. Belongs to the model of kernel/iofd.c:294-408, iofd.c:63-72, iofd.c:45-52. -/
inductive Act
  | call (e : Env) (q : Option Q) (p : Par) (k : Kind)
  | callOn (e : Env) (q : Option Q) (p : Par) (k : Kind) (callErr : Nat)
  | op (fd : Int) (o : Op)
deriving DecidableEq, Repr

/-- Nothing registered. Belongs to the model of kernel/iofd.c:294-408, iofd.c:63-72, iofd.c:45-52. -/
def init : St := ⟨[], [], [], 0, [], [], [], [], []⟩

/-- The state after a history, from `s`; `none` if the behaviour became undefined. Belongs to the model of kernel/iofd.c:294-408, iofd.c:63-72, iofd.c:45-52. -/
def hist (s : St) : List Act → Option St
  | [] => some s
  | .call e q p k :: as => match call s e q p k with | .ub => none | .ok _ s => hist s as
  | .callOn e q p k c :: as => match callOn s e q p k c with | .ub => none | .ok _ s => hist s as
  | .op fd o :: as => hist (step fd s o) as

end Verif.FdReg
