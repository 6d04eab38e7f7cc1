/-!
# Making a queue, step by step, with everything that can fail

Models aosl_mpq_create and aosl_mpq_create_flags down to the platform: `__mpq_create_flags` (kernel/mpq.c:1044-1072), `__mpq_create` (mpq.c:1001-1042), k_thread_create (kernel/thread.c:73-118),
mpq_thread_entry up to the answer (mpq.c:949-985), `__q_create` (mpq.c:854-936), os_mp_init, os_init_sigp, os_init_sigp_pipe, os_init_sigp_event, os_pipe, os_socket_pipe, os_fini_sigp, os_mp_fini
(kernel/osmp.c:196-360), os_mp_init_epoll, os_activate_sigp_epoll (kernel/et_mp.c:24-59; poll_mp.c:21-38, select_mp.c:20-41 do nothing), and the end of a queue: `__q_destroy` (mpq.c:733-758).

Memory blocks, descriptors, locks, conditions and ids are *handles*, numbered in the order in which they are made; the same number is never given twice.  The two locks and conditions on the stack of
the creator (1016-1017, thread.c:95-96) are made and destroyed on every path there and left out, as are descriptors, timers and functions a running queue has: `QEnd` has those.  A thread that cannot
be started is reported (it is not on linux and harmony: `ThreadApi`).
-/

namespace Verif.QMake

/-- `open_`: the handles there are; `next`: the next new one; `bad`: a handle was given back that was not there; `inits`, `finis`: calls of the two callbacks; `thr`: threads running;
`errno`: aosl_errno of the calling thread. Belongs to the model of kernel/mpq.c:1044-1072, mpq.c:1001-1042, kernel/thread.c:73-118. -/
structure St where
  open_ : List Nat
  next : Nat
  bad : Bool
  inits : Nat
  finis : Nat
  thr : Nat
  errno : Int
deriving DecidableEq, Repr

/-- include/api/aosl_errno.h:39, 133; AOSL_EBASE is left out.  A platform call that fails may also give AOSL_EINTR, AOSL_EAGAIN or AOSL_EINPROGRESS (include/kernel/err.h:52-76): like AOSL_EHAL none of
them is 0, and only that counts here. -/
def EINVAL : Int := 22
/-- A constant of the model of kernel/mpq.c:1044-1072, mpq.c:1001-1042, kernel/thread.c:73-118. -/
def EHAL : Int := 1000

/-- The cases distinguished in the model of kernel/mpq.c:1044-1072, mpq.c:1001-1042, kernel/thread.c:73-118. -/
inductive Backend | epoll | poll | select
deriving DecidableEq, Repr

/-- os_pipe (osmp.c:239-248): pipe() on linux and darwin; two sockets elsewhere: the first one, bind, the second one, connect. -/
inductive Pipe
  | pipe (ok : Bool)
  | sockets (s1 bind s2 conn : Bool)
deriving DecidableEq, Repr

/-- What the platform does: is the thread started, …; `id`: 0 or the error of get_unused_mpq_id; `init`: what the init callback returns and what it leaves in aosl_errno, if there is one; `fini`:
there is a fini callback. Belongs to the model of kernel/mpq.c:1044-1072, mpq.c:1001-1042, kernel/thread.c:73-118. -/
structure Env where
  thread : Bool
  qmem : Bool
  nmem : Bool
  efd : Bool
  pipe : Pipe
  nb0 : Bool
  nb1 : Bool
  act : Bool
  ev : Bool
  id : Option Int
  init : Option (Int × Int)
  fini : Bool
deriving DecidableEq, Repr

/-- The fields of struct mp_queue that own something. Belongs to the model of kernel/mpq.c:1044-1072, mpq.c:1001-1042, kernel/thread.c:73-118. -/
structure Q where
  obj : Nat
  name : Option Nat
  efd : Option Nat
  piper : Option Nat
  pipew : Option Nat
  activated : Bool
  event : Option Nat
  lock : Option Nat
  cond : Option Nat
  qid : Option Nat
deriving DecidableEq, Repr

/-- Belongs to the model of kernel/mpq.c:1044-1072, mpq.c:1001-1042, kernel/thread.c:73-118. -/
def St.make (s : St) : Nat × St := (s.next, { s with open_ := s.next :: s.open_, next := s.next + 1 })

/-- A handle is given back. Belongs to the model of kernel/mpq.c:1044-1072, mpq.c:1001-1042, kernel/thread.c:73-118. -/
def St.drop (s : St) (h : Nat) : St := if h ∈ s.open_ then { s with open_ := s.open_.erase h } else { s with bad := true }

/-- Belongs to the model of kernel/mpq.c:1044-1072, mpq.c:1001-1042, kernel/thread.c:73-118. -/
def St.dropO (s : St) : Option Nat → St
  | none => s
  | some h => s.drop h

/-- osmp.c:251-272; os_deactivate_sigp takes the descriptor off the epoll set and gives nothing back. -/
def finiSigp (s : St) (q : Q) : St × Q :=
  let s1 := s.dropO q.piper
  let s2 := s1.dropO q.pipew
  let s3 := s2.dropO q.event
  (s3, { q with activated := false, piper := none, pipew := none, event := none })

/-- et_mp.c:35-39; poll_mp.c:26, select_mp.c:26: nothing -/
def finiPub (b : Backend) (s : St) (q : Q) : St × Q :=
  match b with
  | .epoll => (s.dropO q.efd, { q with efd := none })
  | _ => (s, q)

/-- os_mp_fini (osmp.c:356-360) -/
def mpFini (b : Backend) (s : St) (q : Q) : St × Q :=
  let (s1, q1) := finiSigp s q
  finiPub b s1 q1

/-- osmp.c:239-248 with 196-236: the two descriptors; on the error path of the second socket (222-226) the first one stays open. -/
def osPipe (s : St) : Pipe → Option (Nat × Nat) × St
  | .pipe false => (none, s)
  | .pipe true =>
    let (r, s1) := s.make
    let (w, s2) := s1.make
    (some (r, w), s2)
  | .sockets s1 bind s2 conn =>
    if !s1 then (none, s)
    else
      let (r, t1) := s.make
      if !bind then (none, t1.drop r)
      else if !s2 then (none, t1)
      else
        let (w, t2) := t1.make
        if !conn then (none, (t2.drop w).drop r)
        else (some (r, w), t2)

/-- os_init_sigp_pipe (osmp.c:274-306); the third part of the answer is aosl_errno of the queue's thread. -/
def initPipe (b : Backend) (e : Env) (s : St) (q : Q) (errno : Int) : Bool × St × Q × Int :=
  match osPipe s e.pipe with
  | (none, s1) => let (s2, q2) := finiSigp s1 q; (false, s2, q2, errno)
  | (some (r, w), s1) =>
    let q1 := { q with piper := some r, pipew := some w }
    if !e.nb0 then let (s2, q2) := finiSigp s1 q1; (false, s2, q2, EHAL)
    else if !e.nb1 then let (s2, q2) := finiSigp s1 q1; (false, s2, q2, EHAL)
    else if b = .epoll ∧ !e.act then let (s2, q2) := finiSigp s1 q1; (false, s2, q2, EHAL)
    else (true, s1, { q1 with activated := true }, errno)

/-- os_init_sigp (osmp.c:317-340); `evt`: AOSL_MPQ_FLAG_SIGP_EVENT -/
def initSigp (b : Backend) (e : Env) (evt : Bool) (s : St) (q : Q) (errno : Int) : Bool × St × Q × Int :=
  let q0 := { q with piper := none, pipew := none, activated := false, event := none }
  if evt then
    if e.ev then let (h, s1) := s.make; (true, s1, { q0 with event := some h }, errno)
    else (false, s, q0, errno)
  else initPipe b e s q0 errno

/-- os_mp_init (osmp.c:342-354) -/
def mpInit (b : Backend) (e : Env) (evt : Bool) (s : St) (q : Q) (errno : Int) : Bool × St × Q × Int :=
  match b with
  | .epoll =>
    if !e.efd then (false, s, { q with efd := none }, EHAL)
    else
      let (h, s1) := s.make
      let q1 := { q with efd := some h }
      match initSigp b e evt s1 q1 errno with
      | (true, s2, q2, er) => (true, s2, q2, er)
      | (false, s2, q2, er) => let (s3, q3) := finiPub b s2 q2; (false, s3, q3, er)
  | _ => initSigp b e evt s q errno

/-- `__free_q_obj` (mpq.c:720-728) -/
def freeObj (s : St) (q : Q) : St := (s.dropO q.name).drop q.obj

/-- `__q_create` (mpq.c:854-936): the queue, or nothing and the error -/
def qCreate (b : Backend) (e : Env) (evt : Bool) (s : St) : Option Q × St × Int :=
  -- aosl_errno of a new thread
  let errno : Int := 0
  if !e.qmem then (none, s, errno)
  else
    let (o, s1) := s.make
    let (nm, s2) := if e.nmem then (let (h, t) := s1.make; (some h, t)) else (none, s1)
    let q : Q := ⟨o, nm, none, none, none, false, none, none, none, none⟩
    match mpInit b e evt s2 q errno with
    | (false, s3, q3, er) => (none, freeObj s3 q3, er)
    | (true, s3, q3, er) =>
      let (l, s4) := s3.make
      let (c, s5) := s4.make
      let q5 := { q3 with lock := some l, cond := some c }
      match e.id with
      | some er' =>
        let s6 := (s5.drop l).drop c
        let (s7, q7) := mpFini b s6 q5
        (none, freeObj s7 q7, er')
      | none =>
        let (i, s6) := s5.make
        (some { q5 with qid := some i }, s6, er)

/-- `__q_destroy` (mpq.c:733-758) -/
def qDestroy (b : Backend) (s : St) (q : Q) : St :=
  let (s1, q1) := mpFini b s q
  let s2 := ((s1.dropO q1.lock).dropO q1.cond).dropO q1.qid
  freeObj s2 q1

/-- Belongs to the model of kernel/mpq.c:1044-1072, mpq.c:1001-1042, kernel/thread.c:73-118. -/
def St.fini (s : St) (e : Env) : St := if e.fini then { s with finis := s.finis + 1 } else s

/-- The end of a queue with nothing left to do: `__q_wait_destroy` (mpq.c:800-852) -/
def qEnd (b : Backend) (e : Env) (s : St) (q : Q) : St := qDestroy b (s.fini e) q

/-- mpq_thread_entry up to its answer (mpq.c:949-985): the queue or nothing; `args->err` -/
def entry (b : Backend) (e : Env) (evt : Bool) (s : St) : Option Q × St × Int :=
  match qCreate b e evt s with
  | (none, s1, er) => (none, s1.fini e, er)
  | (some q, s1, er) =>
    match e.init with
    | none => (some q, s1, er)
    | some (ret, er') =>
      let s2 := { s1 with inits := s1.inits + 1 }
      if ret < 0 then (none, qEnd b e s2 q, er') else (some q, s2, er)

/-- MPQ_MAX_SIZE (include/api/aosl_mpq.h:80) -/
def MAX : Int := 1000000

/-- `__mpq_create_flags` (mpq.c:1044-1062) and `__mpq_create` (1001-1042); `flags` as an unsigned number; `none`: AOSL_MPQ_INVALID.  AOSL_MPQ_FLAG_SIGP_EVENT is bit 1. -/
def create (b : Backend) (e : Env) (flags : Nat) (pri max : Int) (s : St) : Option Q × St :=
  if flags / 65536 ≠ 0 then (none, { s with errno := EINVAL })
  else if max < 1 ∨ max > MAX then (none, { s with errno := EINVAL })
  -- thread.c:82-84: the caller of k_thread_create drops the error
  else if pri < 0 ∨ pri > 5 then (none, s)
  else if !e.thread then (none, { s with errno := EHAL })
  else
    match entry b e (flags.testBit 1) s with
    | (some q, s1, _) => (some q, { s1 with thr := s1.thr + 1 })
    | (none, s1, er) => (none, { s1 with errno := er })

/-- The queue is destroyed and its thread ends. Belongs to the model of kernel/mpq.c:1044-1072, mpq.c:1001-1042, kernel/thread.c:73-118. -/
def destroy (b : Backend) (e : Env) (s : St) (q : Q) : St :=
  let s1 := qEnd b e s q
  { s1 with thr := s1.thr - 1 }

end Verif.QMake
