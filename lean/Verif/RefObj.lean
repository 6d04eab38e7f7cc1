/-
  Model of one reference object of kernel/refobj.c used by any number of threads at once, including the
  queue threads that run functions bound to it (mpq_invoke_refobj_get / _put, kernel/mpq.c:568-622).

  A thread is a stack of calls: inside a callback it may call the API again.  A step is one atomic operation:
  a critical section of refobj_table_lock, an acquisition or release of the object's lock (`stop_lock`), an
  update of `usage`, or a piece of code that only touches data of the running thread.  The object's lock is
  modelled by what C55 and C56 establish for k_rwlock: a read acquisition needs that nobody holds it for
  writing, a write acquisition that nobody holds it at all, and an upgrade gives up the read lock and takes the
  write lock with no other writer in between.  Which waiter goes first is left open.

  Not modelled: the tree of thread nodes is a record per thread (its clean-up after a minute is not modelled),
  memory exhaustion in creating a node aborts the process in the code, and the destructor is one step.
-/
namespace Verif.RefObj

/-- The three options of aosl_ref_create, include/api/aosl_ref.h:46-64, kernel/refobj.c:421-441. -/
structure Cfg where
  async : Bool
  recursive : Bool
  callerFree : Bool
deriving DecidableEq, Repr

/-- The calls: aosl_ref_hold / _read / _write (kernel/refobj.c:707-819), a function bound to the object run by
    a queue thread (kernel/mpq.c:624-635), aosl_ref_destroy (kernel/refobj.c:858-963). -/
inductive Call where
  | hold
  | read
  | write
  | qfunc
  | destroy (del : Bool)
deriving DecidableEq, Repr

/-- What the call reports; for a function run by a queue `freeOnly`: it was run with the free-only object. Belongs to the model of kernel/mpq.c:568-622. -/
inductive Ret where
  | ok
  | einval
  | eperm
  | enoent
  | freeOnly
deriving DecidableEq, Repr

/-- A call in flight that has taken its reference, with the place it has reached.  `…Cb`: inside the callback. -/
inductive Fr where
  | holdCb
  | rdGot
  /-- refobj_thread_rdlock, before `__refobj_rdlock_raw` (349-350) -/
  | rdWait
  /-- refobj_rdlock, before the test of the destroyed flag (603) -/
  | rdChk
  /-- in the callback; `locked` = false when the running queue function already has the lock (589-596, 614-621) -/
  | rdCb (locked : Bool)
  | wrGot
  | wrWait (up : Bool)
  | wrChk (up : Bool)
  | wrCb (up : Bool)
  /-- mpq_invoke_refobj_get, before `__refobj_rdlock_raw` / before the test of the flag -/
  | qGot
  | qChk
  | qCb
  | dGot (del : Bool)
  /-- before the unlocked test of the destroyed flag, 906; `own`: robj_this_thread_get_count -/
  | dMark (del : Bool) (own : Nat)
  /-- before / after `__refobj_wrlock_raw`, 918 -/
  | dWait (del : Bool) (own : Nat)
  | dSet (del : Bool) (own : Nat)
  /-- at 926 with `err` -/
  | dAfter (del : Bool) (own : Nat) (err : Ret)
  /-- in the loop 945-946 -/
  | dSpin (own : Nat)
  /-- before the final put, with what will be returned -/
  | fin (c : Call) (r : Ret)
deriving DecidableEq, Repr

/-- A thread: its calls in flight, innermost first, the two parts of `lock_count` (kernel/refobj.c:192-208)
    and `get_count` of its thread node, and what it holds of the object's lock. -/
structure Th where
  stack : List Fr
  rd : Nat
  wr : Bool
  get : Nat
  raw : Nat
  rawW : Bool
deriving DecidableEq, Repr

/-- The state at the beginning, in the model of kernel/mpq.c:568-622. -/
def Th.init : Th := ⟨[], 0, false, 0, 0, false⟩

/-- `installed`: the table entry points to the object.  `initRef`: the reference of the creator is not yet put.
    Ghosts: `dtor` how often the destructor has run, `dtorBy` on which thread; `deleter` the thread whose
    destroy call has removed the table entry; `log` the finished calls with thread and result. Belongs to the model of kernel/mpq.c:568-622. -/
structure St where
  ths : List Th
  installed : Bool
  initRef : Bool
  usage : Nat
  destroyed : Bool
  freed : Bool
  dtor : Nat
  dtorBy : Option Nat
  deleter : Option Nat
  log : List (Nat × Call × Ret)
deriving DecidableEq, Repr

/-- refobj_create, kernel/refobj.c:462-498, with `n` threads around. -/
def St.init (n : Nat) : St := ⟨List.replicate n Th.init, true, true, 1, false, false, 0, none, none, []⟩

/-- The outcomes, in the model of kernel/mpq.c:568-622. -/
inductive Out where
  | ok (s : St)
  /-- not possible now -/
  | no
  /-- abort () -/
  | abort
  /-- the object is used after it was freed, or `usage` underflows -/
  | ub
deriving DecidableEq, Repr

/-- `__refobj_put`, kernel/refobj.c:562-566 with refobj_free 500-526, by thread `i`. -/
def St.put (s : St) (i : Nat) : Out :=
  match s.usage with
  | 0 => .ub
  | n + 1 =>
    if n = 0 then .ok { s with usage := 0, freed := true, dtor := s.dtor + 1, dtorBy := some i }
    else .ok { s with usage := n }

/-- Belongs to the model of kernel/mpq.c:568-622. -/
def St.setTh (s : St) (i : Nat) (t : Th) : St := { s with ths := s.ths.set i t }

/-- A thread may start a call when it is in no call or in a callback. Belongs to the model of kernel/mpq.c:568-622. -/
def Th.canCall (t : Th) : Bool :=
  match t.stack with
  | [] => true
  | .holdCb :: _ => true
  | .rdCb _ :: _ => true
  | .wrCb _ :: _ => true
  | .qCb :: _ => true
  | _ => false

/-- refobj_on_this_q, kernel/mpq.c:518-531. -/
def Th.onQ (t : Th) : Bool := t.stack.any (· == .qCb)

/-- Nobody has the object's lock for writing / at all. Belongs to the model of kernel/mpq.c:568-622. -/
def St.noW (s : St) : Bool := s.ths.all fun t => !t.rawW
/-- Belongs to the model of kernel/mpq.c:568-622. -/
def St.noHolder (s : St) : Bool := s.ths.all fun t => !t.rawW && t.raw == 0

/-- The thread is between the call of `__refobj_rd2wrlock_raw` and the end of `__refobj_wr2rdlock_raw`. Belongs to the model of kernel/mpq.c:568-622. -/
def Th.upgrading (t : Th) : Bool := t.stack.any fun f => f == .wrWait true || f == .wrChk true || f == .wrCb true

/-- Belongs to the model of kernel/mpq.c:568-622. -/
def getFrame : Call → Fr
  | .hold => .holdCb
  | .read => .rdGot
  | .write => .wrGot
  | .qfunc => .qGot
  | .destroy d => .dGot d

/-- The result when the object is not found: `__ref_op_argv` 712-714, aosl_ref_destroy 865-868,
    mpq_invoke_refobj_get kernel/mpq.c:608. -/
def missing : Call → Ret
  | .qfunc => .freeOnly
  | .destroy _ => .enoent
  | _ => .einval

inductive Act where
  /-- thread `i` calls the API: the lookup `__refobj_get`, kernel/refobj.c:528-560 -/
  | call (i : Nat) (c : Call)
  /-- thread `i` makes one step of its innermost call -/
  | go (i : Nat)
deriving DecidableEq, Repr

/-- The destroy call counts no get_count (861). -/
def counted : Call → Bool
  | .destroy _ => false
  | _ => true

/-- Belongs to the model of kernel/mpq.c:568-622. -/
def St.call (cfg : Cfg) (s : St) (i : Nat) (t : Th) (c : Call) : Out :=
  if t.canCall then
    if s.installed then
      if s.freed then .ub
      else
        let t := { t with stack := getFrame c :: t.stack,
                          get := if cfg.callerFree && counted c then t.get + 1 else t.get }
        .ok { s.setTh i t with usage := s.usage + 1 }
    else .ok { s with log := (i, c, missing c) :: s.log }
  else .no

/-- One step of the innermost call `f` of thread `i`; `t` is the thread with this call removed from the stack. Belongs to the model of kernel/mpq.c:568-622. -/
def St.frame (cfg : Cfg) (s : St) (i : Nat) (t : Th) : Fr → Out
  /- the callback of aosl_ref_hold returns -/
  | .holdCb => .ok (s.setTh i { t with stack := .fin .hold .ok :: t.stack })
  /- refobj_rdlock 587-602, refobj_thread_rdlock 326-351 -/
  | .rdGot =>
    if t.onQ && !cfg.async then .ok (s.setTh i { t with stack := .rdCb false :: t.stack })
    else if t.wr then .abort
    else if !cfg.recursive && t.rd != 0 then .abort
    else if t.rd = 0 then .ok (s.setTh i { t with rd := 1, stack := .rdWait :: t.stack })
    else .ok (s.setTh i { t with rd := t.rd + 1, stack := .rdChk :: t.stack })
  | .rdWait =>
    if s.noW then .ok (s.setTh i { t with raw := t.raw + 1, stack := .rdChk :: t.stack }) else .no
  /- 603-606; refobj_thread_rdunlock 353-376 -/
  | .rdChk =>
    if s.destroyed then
      .ok (s.setTh i { t with rd := t.rd - 1, raw := if t.rd - 1 = 0 then t.raw - 1 else t.raw,
                              stack := .fin .read .eperm :: t.stack })
    else .ok (s.setTh i { t with stack := .rdCb true :: t.stack })
  /- the callback of aosl_ref_read returns, refobj_rdunlock 612-628 -/
  | .rdCb false => .ok (s.setTh i { t with stack := .fin .read .ok :: t.stack })
  | .rdCb true =>
    .ok (s.setTh i { t with rd := t.rd - 1, raw := if t.rd - 1 = 0 then t.raw - 1 else t.raw,
                            stack := .fin .read .ok :: t.stack })
  /- __refobj_op_argv 678-688, refobj_thread_wrlock 378-397; k_rwlock_rd2wrlock aborts when two upgrade -/
  | .wrGot =>
    if t.rd != 0 || t.wr then .abort
    else if t.onQ && !cfg.async then
      if s.ths.any Th.upgrading then .abort
      else .ok (s.setTh i { t with wr := true, stack := .wrWait true :: t.stack })
    else .ok (s.setTh i { t with wr := true, stack := .wrWait false :: t.stack })
  | .wrWait false =>
    if s.noHolder then .ok (s.setTh i { t with rawW := true, stack := .wrChk false :: t.stack }) else .no
  | .wrWait true =>
    if (s.setTh i { t with raw := t.raw - 1 }).noHolder then
      .ok (s.setTh i { t with raw := t.raw - 1, rawW := true, stack := .wrChk true :: t.stack })
    else .no
  /- refobj_wrlock 630-647, refobj_thread_wrunlock 399-419 -/
  | .wrChk up =>
    if s.destroyed then
      if up then .abort
      else .ok (s.setTh i { t with wr := false, rawW := false, stack := .fin .write .eperm :: t.stack })
    else .ok (s.setTh i { t with stack := .wrCb up :: t.stack })
  /- the callback of aosl_ref_write returns -/
  | .wrCb up =>
    .ok (s.setTh i { t with wr := false, rawW := false, raw := if up then t.raw + 1 else t.raw,
                            stack := .fin .write .ok :: t.stack })
  /- mpq_invoke_refobj_get, kernel/mpq.c:568-612 -/
  | .qGot =>
    if cfg.async then .ok (s.setTh i { t with stack := .qChk :: t.stack })
    else if s.noW then .ok (s.setTh i { t with raw := t.raw + 1, stack := .qChk :: t.stack })
    else .no
  | .qChk =>
    if s.destroyed then
      .ok (s.setTh i { t with raw := if cfg.async then t.raw else t.raw - 1, stack := .fin .qfunc .freeOnly :: t.stack })
    else .ok (s.setTh i { t with stack := .qCb :: t.stack })
  /- the function returns, mpq_invoke_refobj_put, kernel/mpq.c:614-622 -/
  | .qCb =>
    .ok (s.setTh i { t with raw := if cfg.async then t.raw else t.raw - 1, stack := .fin .qfunc .ok :: t.stack })
  /- aosl_ref_destroy 870-898 -/
  | .dGot del =>
    if t.onQ && !cfg.async then .abort
    else if t.rd != 0 then .abort
    else if del then
      if s.installed then
        .ok { s.setTh i { t with stack := .dMark del t.get :: t.stack } with installed := false, deleter := some i }
      else .ok (s.setTh i { t with stack := .fin (.destroy del) .einval :: t.stack })
    else .ok (s.setTh i { t with stack := .dMark del t.get :: t.stack })
  | .dMark del own =>
    if s.destroyed then .ok (s.setTh i { t with stack := .dAfter del own .eperm :: t.stack })
    else .ok (s.setTh i { t with stack := .dWait del own :: t.stack })
  | .dWait del own =>
    if s.noHolder then .ok (s.setTh i { t with rawW := true, stack := .dSet del own :: t.stack }) else .no
  /- 919-921: the three statements are one step -/
  | .dSet del own =>
    .ok { s.setTh i { t with rawW := false,
                             stack := .dAfter del own (if s.destroyed then .eperm else .ok) :: t.stack }
          with destroyed := true }
  /- 926-956 -/
  | .dAfter del own err =>
    if del then
      ({ s.setTh i { t with stack := (if cfg.callerFree && !cfg.async then .dSpin own
                                      else .fin (.destroy del) .ok) :: t.stack } with initRef := false }).put i
    else .ok (s.setTh i { t with stack := .fin (.destroy del) err :: t.stack })
  | .dSpin own =>
    if s.usage ≤ 1 + own then .ok (s.setTh i { t with stack := .fin (.destroy true) .ok :: t.stack }) else .no
  /- refobj_put 573-585, `__refobj_put` at 959 -/
  | .fin c r =>
    ({ s.setTh i { t with get := if cfg.callerFree && counted c then t.get - 1 else t.get }
       with log := (i, c, r) :: s.log }).put i

/-- What one event does, in the model of kernel/mpq.c:568-622. -/
def St.step (cfg : Cfg) (s : St) : Act → Out
  | .call i c =>
    match s.ths[i]? with
    | none => .no
    | some t => s.call cfg i t c
  | .go i =>
    match s.ths[i]? with
    | none => .no
    | some t =>
      match t.stack with
      | [] => .no
      | f :: fs => if s.freed then .ub else s.frame cfg i { t with stack := fs } f

/-- One event after the other, in the model of kernel/mpq.c:568-622; no code of its own. -/
def St.run (cfg : Cfg) (s : St) : List Act → Out
  | [] => .ok s
  | a :: as =>
    match s.step cfg a with
    | .ok s' => s'.run cfg as
    | o => o

end Verif.RefObj
