/-! # The end of the main queue and those who wait for it (C225)

Models kernel/mpq.c:733-761 (`__q_destroy`: forgetting the main queue and `aosl_shrink_resources`, 1828-1833), 800-851 (`__q_wait_destroy`), 1721-1760 (`mpq_do_wait`), 1818-1826 (`aosl_main_exit_wait`),
1768-1776 and 1793-1794 (`__main_auto_exit`, run by exit()) with kernel/mpqp.c:929-995 (`mpqp_shrink_pools`: every queue of the four pools is destroyed and waited for).

The main queue and any number of other queues, some of them in the default pools. A function is what it does to this: it returns, or calls `aosl_main_exit_wait` (as exit() does) and then returns.
Simplified: the main queue ends by `aosl_main_exit` or `aosl_main_exit_wait` only; the destruction of the default pools is one step (a queue
that is added to a pool later is not waited for); functions do not call other queues (C192), and callers not on queues only wait. -/
namespace Verif.MainEnd

/-- The cases distinguished in the model of kernel/mpq.c:733-761, kernel/mpqp.c:929-995. -/
inductive Fn
  /-- returns -/
  | ret
  /-- calls `aosl_main_exit_wait`, or exit() -/
  | exitWait
deriving DecidableEq, Repr

/-- what a thread of a queue does -/
inductive Run
  | idle
  | fn (f : Fn)
  /-- in `__mpq_destroy_wait` for the main queue (mpq.c:1719-1729) -/
  | waiting
deriving DecidableEq, Repr

/-- Data of the model of kernel/mpq.c:733-761, kernel/mpqp.c:929-995. -/
structure Q where
  /-- is it in one of the four default pools, or was it when the main queue shrank them? -/
  pool : Bool
  run : Run
  pend : List Fn
  /-- `q->terminated` -/
  term : Bool
  gone : Bool
deriving DecidableEq, Repr

inductive Ph
  | up
  /-- uninstalled, functions run for the last time (mpq.c:805-826), `aosl_main_qid` not yet reset or just reset -/
  | ending
  /-- in `mpqp_shrink_pools` (mpq.c:754, mpqp.c:989-995), waiting for the pool queues -/
  | shrinking
  /-- freed, and whoever waits is told (mpq.c:841-851) -/
  | done
deriving DecidableEq, Repr

/-- Data of the model of kernel/mpq.c:733-761, kernel/mpqp.c:929-995. -/
structure St where
  ph : Ph
  run : Run
  pend : List Fn
  term : Bool
  qs : List Q
deriving DecidableEq, Repr

/-- The calls and events of the model of kernel/mpq.c:733-761, kernel/mpqp.c:929-995. -/
inductive Ev
  /-- a function is queued to queue `i`, to the main queue (`none`) -/
  | post (i : Option Nat) (f : Fn)
  /-- `aosl_main_exit` by anyone, or the first half of `aosl_main_exit_wait` on a thread without a queue -/
  | exit
  /-- a queue is created, in a default pool or not -/
  | new (pool : Bool)
  /-- queue `i`, in no default pool, is destroyed -/
  | destroy (i : Nat)
  /-- queue `i` is taken out of its pool, idle or by `aosl_mpqp_shrink` -/
  | shrinkOne (i : Nat)
  /-- the thread of queue `i` (of the main queue) takes the next function -/
  | take (i : Option Nat)
  /-- it goes on in its function -/
  | go (i : Option Nat)
  /-- queue `i` ends -/
  | qEnd (i : Nat)
  /-- the main queue leaves its loop -/
  | leave
  /-- it shrinks the pools -/
  | shrink
  /-- it ends -/
  | finish
deriving DecidableEq, Repr

/-- Queue `i` is there and `p` holds of it: it becomes `g`. Belongs to the model of kernel/mpq.c:733-761, kernel/mpqp.c:929-995. -/
def updQ (s : St) (i : Nat) (p : Q → Bool) (g : Q → Q) : Option St :=
  match s.qs[i]? with
  | some q => if p q then some { s with qs := s.qs.set i (g q) } else none
  | none => none

def step (s : St) : Ev → Option St
  -- mpq.c:401-485 ____add_f
  | .post none f => if s.ph = .up then some { s with pend := s.pend ++ [f] } else none
  | .post (some i) f => updQ s i (fun q => !q.term && !q.gone) fun q => { q with pend := q.pend ++ [f] }
  -- mpq.c:1813-1816, 1742-1752 (a main queue that is still installed is found)
  | .exit => if s.ph = .up then some { s with term := true } else none
  -- mpq.c:1001-1043; mpqp.c:186-205
  | .new b => some { s with qs := s.qs ++ [{ pool := b && (s.ph == .up || s.ph == .ending), run := .idle, pend := [], term := false, gone := false }] }
  -- mpq.c:1668-1695
  | .destroy i => updQ s i (fun q => !q.pool && !q.gone) fun q => { q with term := true }
  -- mpqp.c:890-920
  | .shrinkOne i => if s.ph = .up ∨ s.ph = .ending then updQ s i (fun q => q.pool) fun q => { q with pool := false, term := true } else none
  -- mpq.c:671-694
  | .take none => if (s.ph = .up ∨ s.ph = .ending) ∧ s.run = .idle then
      match s.pend with
      | f :: fs => some { s with run := .fn f, pend := fs }
      | [] => none
    else none
  | .take (some i) => updQ s i (fun q => !q.gone && q.run == .idle && !q.pend.isEmpty) fun q => { q with run := .fn (q.pend.headD .ret), pend := q.pend.tail }
  | .go none => match s.run with
    | .fn .ret => some { s with run := .idle }
    -- mpq.c:1735-1738: EBUSY on the main queue itself
    | .fn .exitWait => some { s with run := .idle }
    | _ => none
  | .go (some i) => match s.qs[i]? with
    | some q => match q.run with
      | .fn .ret => some { s with qs := s.qs.set i { q with run := .idle } }
      | .fn .exitWait =>
        -- mpq.c:1742-1760, or EINVAL if the main queue is not found (1731-1733)
        if s.ph = .up then some { s with term := true, qs := s.qs.set i { q with run := .waiting } } else some { s with qs := s.qs.set i { q with run := .idle } }
      -- mpq.c:1723-1725
      | .waiting => if s.ph = .done then some { s with qs := s.qs.set i { q with run := .idle } } else none
      | .idle => none
    | none => none
  -- mpq.c:775-778, 800-851
  | .qEnd i => updQ s i (fun q => q.term && !q.gone && q.run == .idle && q.pend.isEmpty) fun q => { q with gone := true }
  -- mpq.c:775-778, 805
  | .leave => if s.ph = .up ∧ s.term = true ∧ s.run = .idle then some { s with ph := .ending } else none
  -- mpq.c:818-831, 752-754, mpqp.c:936-977
  | .shrink => if s.ph = .ending ∧ s.run = .idle ∧ s.pend = [] then
      some { s with ph := .shrinking, qs := s.qs.map fun q => if q.pool then { q with term := true } else q } else none
  -- mpqp.c:980-985 for all pools, mpq.c:757, 841-851
  | .finish => if s.ph = .shrinking ∧ (∀ q ∈ s.qs, q.pool = true → q.gone = true) then some { s with ph := .done } else none

/-- One event after the other, in the model of kernel/mpq.c:733-761, kernel/mpqp.c:929-995; no code of its own. -/
def runs (s : St) : List Ev → Option St
  | [] => some s
  | e :: es => (step s e).bind fun s' => runs s' es

/-- No queue yet. Belongs to the model of kernel/mpq.c:733-761, kernel/mpqp.c:929-995. -/
def init0 : St := { ph := .up, run := .idle, pend := [], term := false, qs := [] }

/-- The steps of the threads of the queues: not those that others take. Belongs to the model of kernel/mpq.c:733-761, kernel/mpqp.c:929-995. -/
def internal : Ev → Bool
  | .post _ _ => false
  | .exit => false
  | .new _ => false
  | .destroy _ => false
  | .shrinkOne _ => false
  | _ => true

end Verif.MainEnd
