import Verif.SysApi
/-
  Model of what a function can ask about itself while it runs on a queue, and of the times a queue measures:
  kernel/mpq.c:518-566 (q_invoke_f, refobj_on_this_q), 890-893, 1159-1231 (aosl_mpq_run_func_arg, aosl_mpq_run_func_data,
  aosl_mpq_run_func_done_qid, aosl_mpq_running_refobj), 1568-1583 (aosl_mpq_last_costs), kernel/osmp.c:79-111,
  include/kernel/mp_queue.h:31.

  A function's body is the tree of what it does on its own queue: asking, and having further functions invoked (a synchronous call to the
  own queue, mpq.c:1256-1291; a second, free-only invocation of a function whose completion queue is gone, mpq.c:636-650, is one more
  invocation after the first).  What else a function does does not touch the four fields.
-/
namespace Verif.RunQuery

/-- the reference object a function is invoked with: NULL, AOSL_FREE_ONLY_OBJ, or an object. Belongs to the model of kernel/mpq.c:518-566, kernel/osmp.c:79-111, include/kernel/mp_queue.h:31. -/
inductive Robj where
  | null
  | freeOnly
  | obj (o : Nat)
deriving DecidableEq, Repr

/-- what a function is invoked with: an array of words, or bytes. Belongs to the model of kernel/mpq.c:518-566, kernel/osmp.c:79-111, include/kernel/mp_queue.h:31. -/
inductive Pay where
  | args (l : List Nat)
  | data (b : List Nat)
deriving DecidableEq, Repr

/-- one invocation.  `nul`: the pointer to the arguments is NULL (a synchronous call without arguments, mpq.c:1309-1316, or with
    `data == NULL`; a queued function always has a pointer, mpq.c:421). -/
structure Frame where
  done : Option Nat
  robj : Robj
  pay : Pay
  nul : Bool
deriving DecidableEq, Repr

/-- the pointer can be NULL only if there is nothing to point to. Belongs to the model of kernel/mpq.c:518-566, kernel/osmp.c:79-111, include/kernel/mp_queue.h:31. -/
def Frame.ok (f : Frame) : Prop := f.nul = true → f.pay = .args [] ∨ f.pay = .data []

/-- mp_queue.h:31 ARGC_TYPE_DATA_LEN -/
def dataFlag : Nat := 0x80000000

/-- mpq.c:405, 1287: the word `argc` -/
def word : Pay → Nat
  | .args l => l.length
  | .data b => b.length ||| dataFlag

/-- the four fields of `struct mp_queue` (mp_queue.h:149-152).  `argv` is what the pointer points to, `none` is NULL.  `refs` is the linked list
    that starts at `run_func_refobj`. -/
structure Q where
  done : Option Nat
  refs : List Robj
  argc : Nat
  argv : Option Pay
deriving DecidableEq, Repr

/-- mpq.c:890-893 -/
def Q.init : Q := ⟨none, [], 0, none⟩

/-- answers: an error code, or a value. Belongs to the model of kernel/mpq.c:518-566, kernel/osmp.c:79-111, include/kernel/mp_queue.h:31. -/
inductive Ans where
  | eperm | einval | enoent
  | val (v : Nat)
  /-- length and bytes -/
  | bytes (len : Nat) (b : List Nat)
  | qid (q : Option Nat)
  | yes (b : Bool)
  /-- the word read lies outside of the array -/
  | outOfBounds
deriving DecidableEq, Repr

/-- mpq.c:1159-1185 aosl_mpq_run_func_arg -/
def qArg (s : Q) (n : Nat) : Ans :=
  match s.argv with
  | none => .eperm
  | some p =>
    if s.argc &&& dataFlag ≠ 0 then .einval
    else if n ≥ s.argc then .enoent
    else match p with
      | .args l => match l[n]? with | some v => .val v | none => .outOfBounds
      | .data _ => .outOfBounds

/-- mpq.c:1187-1212 aosl_mpq_run_func_data; `~ARGC_TYPE_DATA_LEN` has 32 bits -/
def qData (s : Q) : Ans :=
  match s.argv with
  | none => .eperm
  | some p =>
    if s.argc &&& dataFlag = 0 then .einval
    else match p with
      | .data b => .bytes (s.argc &&& 0x7fffffff) b
      | .args _ => .outOfBounds

/-- mpq.c:1214-1231: aosl_mpq_run_func_done_qid, aosl_mpq_running_refobj for an object (NULL and AOSL_FREE_ONLY_OBJ: always 0) with the
    loop 518-530 -/
def qRef (s : Q) (o : Robj) : Ans :=
  match o with
  | .obj _ => .yes (s.refs.any (· == o))
  | _ => .yes false

/-- what a function does on its queue. Belongs to the model of kernel/mpq.c:518-566, kernel/osmp.c:79-111, include/kernel/mp_queue.h:31. -/
inductive Act where
  | arg (n : Nat)
  | data
  | done
  | ref (o : Robj)
  | invoke (f : Frame) (body : List Act)

/- mpq.c:532-566 q_invoke_f: the fields are saved in local variables, set, the function is called with `argc & ~ARGC_TYPE_DATA_LEN`,
   and the fields are restored. -/
mutual
/-- Belongs to the model of kernel/mpq.c:518-566, kernel/osmp.c:79-111, include/kernel/mp_queue.h:31. -/
def runAct (s : Q) : Act → Q × List Ans
  | .arg n => (s, [qArg s n])
  | .data => (s, [qData s])
  | .done => (s, [.qid s.done])
  | .ref o => (s, [qRef s o])
  | .invoke f body =>
    let prevDone := s.done
    let prevRefs := s.refs
    let prevArgc := s.argc
    let prevArgv := s.argv
    let s1 : Q := { done := f.done, refs := f.robj :: s.refs, argc := word f.pay, argv := if f.nul then none else some f.pay }
    let r := runActs s1 body
    ({ r.1 with done := prevDone, refs := prevRefs, argc := prevArgc, argv := prevArgv }, r.2)
/-- Belongs to the model of kernel/mpq.c:518-566, kernel/osmp.c:79-111, include/kernel/mp_queue.h:31. -/
def runActs (s : Q) : List Act → Q × List Ans
  | [] => (s, [])
  | a :: as =>
    let r := runAct s a
    let r' := runActs r.1 as
    (r'.1, r.2 ++ r'.2)
end

/-! ### Times -/

/-- `last_idle_ts`, `last_wake_ts`, `last_load_us`, `last_idle_us`. Belongs to the model of kernel/mpq.c:518-566, kernel/osmp.c:79-111, include/kernel/mp_queue.h:31. -/
structure Costs where
  idleTs : Nat
  wakeTs : Nat
  load : Nat
  idle : Nat
deriving DecidableEq, Repr

/-- subtraction of `aosl_ts_t` (64 bits) -/
def sub64 (a b : Nat) : Nat := (a + (2 ^ 64 - b % 2 ^ 64)) % 2 ^ 64

/-- mpq.c:904-909; `us` is what aosl_tick_us returns at a point of time -/
def Costs.init (us : Nat → Nat) (t : Nat) : Costs := ⟨us t, us t, 0, 0⟩

/-- osmp.c:79-111: the queue waits from time `t` to time `t'` -/
def Costs.wait (us : Nat → Nat) (c : Costs) (t t' : Nat) : Costs :=
  let c := { c with load := sub64 (us t) c.wakeTs, idleTs := us t }
  { c with idle := sub64 (us t') c.idleTs, wakeTs := us t' }

/-- mpq.c:550-560: what the performance callback is told about a function queued when aosl_tick_now () was `queuedMs`, started at time
    `t` and finished at time `t'`: wait_us and exec_us, both `uint32_t` -/
def perf (us : Nat → Nat) (queuedMs t t' : Nat) : Nat × Nat :=
  (sub64 (us t) (queuedMs * 1000) % 2 ^ 32, sub64 (us t') (us t) % 2 ^ 32)

/-- kernel/time.c:24-27: aosl_tick_us as it is -/
def codeUs (t : Nat) : Nat := SysApi.tickUs (t / 1000000) (t % 1000000 * 1000)

end Verif.RunQuery
