/-
  Model of the per-thread records of a reference object, kernel/refobj.c:195-419, 436-454, 551-589: how a
  record is found or created, how its unsynchronised `usage` count goes up and down, and how the cleanup
  of another thread frees it.

  One reference object, any number of threads (natural numbers, `k_thread_self ()`).  A record has an address;
  `mem a = none` means "never allocated or freed", and a read or write of such a record sets `uaf`.
  Critical sections under `thread_nodes_lock` exclude each other (the lock itself is C56); what happens outside the
  lock (stamping, the lock counts, both halves of `__thread_node_put`) is one step each, so another thread's cleanup
  may come between any two of them.  The tree is a map from thread id to record (C01-C07; that the walk of the
  cleanup is safe and what it visits is C156; here the cleanup may erase any subset of the records it
  may erase).  Time is in milliseconds.
-/
namespace Verif.RefNode

/-- `struct robj_thread_node`, kernel/refobj.c:195-202.  `lock` is `lock_count`. -/
structure Rec where
  tid : Nat
  usage : Nat
  get : Nat
  lock : Int
  ts : Nat
deriving DecidableEq, Repr

/-- Where a thread is between `robj_this_thread_node_get` and the end of `robj_this_thread_node_put`. -/
inductive Phase where
  | out
  /-- record allocated and filled in (294-302), not yet inserted -/
  | creating (a : Nat)
  /-- record found or inserted, `usage` taken, `active_ts` not yet written (287 / 312) -/
  | got (a : Nat)
  /-- `active_ts` written (316) -/
  | stamped (a : Nat)
  /-- the caller has used the counts (346, 362, 390, 407, 555, 584) -/
  | wrote (a : Nat)
  /-- `usage--` done (224), the test of `usage == 0` (225) still to come -/
  | deced (a : Nat)
deriving DecidableEq, Repr

/-- A thread in `refobj_lock_threads_cleanup` (holding the write lock, 250-252). -/
inductive Clean where
  | scanning
  /-- `aosl_rb_erase` done (237), `usage--` to come -/
  | erased (u a : Nat)
  /-- `usage--` done, test to come -/
  | deced (u a : Nat)
deriving DecidableEq, Repr

/-- `lc`, `gc` and `start` are for the statements: what each thread itself has last written to its counts, and
    when it entered its current window. -/
structure St where
  now : Nat
  ph : Nat → Phase
  tree : Nat → Option Nat
  mem : Nat → Option Rec
  next : Nat
  cl : Option Clean
  lc : Nat → Int
  gc : Nat → Nat
  start : Nat → Nat
  /-- a freed record was read or written -/
  uaf : Bool
  /-- `abort ()` of 359-360, 404-405, 582-583: no record although the thread holds something -/
  lost : Bool

/-- A new reference object, kernel/refobj.c:436-441. -/
def St.init : St where
  now := 0
  ph := fun _ => .out
  tree := fun _ => none
  mem := fun _ => none
  next := 0
  cl := none
  lc := fun _ => 0
  gc := fun _ => 0
  start := fun _ => 0
  uaf := false
  lost := false

/-- Point update. Belongs to the model of kernel/refobj.c:195-419, 436-454, 551-589. -/
def upd (f : Nat → β) (i : Nat) (v : β) : Nat → β := fun j => if j = i then v else f j

/-- The conversion `(int)(now - active_ts)`, kernel/refobj.c:236: the low 32 bits as a signed number. -/
def idleInt (now ts : Nat) : Int :=
  let m : Nat := (now - ts) % 2 ^ 32
  if m < 2 ^ 31 then (m : Int) else (m : Int) - 2 ^ 32

/-- The condition of `__check_erase_node`, kernel/refobj.c:235-236, THREAD_MAX_IDLE_TIME = 60000 (213). -/
def mayErase (now : Nat) (r : Rec) : Bool :=
  r.usage == 1 && r.get == 0 && r.lock == 0 && decide (idleInt now r.ts ≥ 60000)

/-- The actions. -/
inductive Act where
  /-- `robj_this_thread_node_get (robj, create)` up to 291, and 293-302 if a record is to be created; `junk` is the
      value malloc left in `active_ts` -/
  | find (t : Nat) (create : Bool) (junk : Nat)
  /-- 304-312 -/
  | insert (t : Nat)
  /-- 315-316 -/
  | stamp (t : Nat)
  /-- the caller reads the counts and writes new ones -/
  | write (t : Nat) (lock : Int) (get : Nat)
  /-- `__thread_node_put`, 224 -/
  | dec (t : Nat)
  /-- `__thread_node_put`, 225-226 -/
  | test (t : Nat)
  /-- `refobj_lock_threads_cleanup` gets the write lock, 250 -/
  | clStart
  /-- `__check_erase_node` finds the record of thread `u` idle and erases it, 235-237 -/
  | clErase (u : Nat)
  /-- 238 = 224 -/
  | clDec
  /-- 238 = 225-226 -/
  | clFree
  /-- 252 -/
  | clEnd
  /-- time passes -/
  | tick (d : Nat)
deriving DecidableEq, Repr

/-- Access to the record at address `a`: `k` on a live record, `uaf` on a freed one. Belongs to the model of kernel/refobj.c:195-419, 436-454, 551-589. -/
def St.touch (s : St) (a : Nat) (k : Rec → St) : St :=
  match s.mem a with
  | none => { s with uaf := true }
  | some r => k r

/-- One step; `none` means the action is not possible now (wrong place, or waiting for the lock). Belongs to the model of kernel/refobj.c:195-419, 436-454, 551-589. -/
def step (s : St) : Act → Option St
  | .find t create junk =>
    -- the read lock excludes the cleanup
    if s.ph t = .out ∧ s.cl = none then
      match s.tree t with
      | some a => some (s.touch a fun r =>
          { s with mem := upd s.mem a (some { r with usage := r.usage + 1 }), ph := upd s.ph t (.got a),
                   start := upd s.start t s.now })
      | none =>
        if create then
          some { s with mem := upd s.mem s.next (some ⟨t, 2, 0, 0, junk⟩), next := s.next + 1,
                        ph := upd s.ph t (.creating s.next), start := upd s.start t s.now }
        else
          -- the caller aborts; a bug of the caller if it holds nothing
          some { s with lost := s.lost || decide (s.lc t ≠ 0 ∨ s.gc t ≠ 0) }
    else none
  | .insert t =>
    match s.ph t with
    | .creating a => if s.cl = none then some { s with tree := upd s.tree t (some a), ph := upd s.ph t (.got a) }
        else none
    | _ => none
  | .stamp t =>
    match s.ph t with
    | .got a => some (s.touch a fun r =>
        { s with mem := upd s.mem a (some { r with ts := s.now }), ph := upd s.ph t (.stamped a) })
    | _ => none
  | .write t lock get =>
    match s.ph t with
    | .stamped a => some (s.touch a fun r =>
        { s with mem := upd s.mem a (some { r with lock := lock, get := get }), ph := upd s.ph t (.wrote a),
                 lc := upd s.lc t lock, gc := upd s.gc t get })
    | _ => none
  | .dec t =>
    match s.ph t with
    | .wrote a => some (s.touch a fun r =>
        { s with mem := upd s.mem a (some { r with usage := r.usage - 1 }), ph := upd s.ph t (.deced a) })
    | _ => none
  | .test t =>
    match s.ph t with
    | .deced a => some (s.touch a fun r =>
        { s with mem := if r.usage = 0 then upd s.mem a none else s.mem, ph := upd s.ph t .out })
    | _ => none
  | .clStart => if s.cl = none then some { s with cl := some .scanning } else none
  | .clErase u =>
    if s.cl = some .scanning then
      match s.tree u with
      | none => none
      | some a =>
        match s.mem a with
        | none => some { s with uaf := true }
        | some r => if mayErase s.now r then some { s with tree := upd s.tree u none, cl := some (.erased u a) }
            else none
    else none
  | .clDec =>
    match s.cl with
    | some (.erased u a) => some (s.touch a fun r =>
        { s with mem := upd s.mem a (some { r with usage := r.usage - 1 }), cl := some (.deced u a) })
    | _ => none
  | .clFree =>
    match s.cl with
    | some (.deced _ a) => some (s.touch a fun r =>
        { s with mem := if r.usage = 0 then upd s.mem a none else s.mem, cl := some .scanning })
    | _ => none
  | .clEnd => if s.cl = some .scanning then some { s with cl := none } else none
  | .tick d => some { s with now := s.now + d }

/-- A run of actions. Belongs to the model of kernel/refobj.c:195-419, 436-454, 551-589. -/
def run (s : St) : List Act → Option St
  | [] => some s
  | a :: l => (step s a).bind fun s' => run s' l

end Verif.RefNode
