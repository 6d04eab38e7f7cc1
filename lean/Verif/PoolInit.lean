/-!
# Creating a pool's queue under the pool's lock

Models /repo/kernel/mpqp.c:136-207 (the queue's init function), 207-261, 766-821 (the three
functions that create a queue while they hold the pool's lock), 883-981 (the shrinking functions,
which hold it only while they change the table) and /repo/kernel/mpq.c:1001-1046 (`__mpq_create`:
the creator waits until the new thread's init function has returned).

What a pool call does besides taking the lock, creating a queue and releasing the lock is left out
(Pool models it).  Which pools the user's init function of a pool uses is a parameter.
-/

namespace Verif.PoolInit

/-- Where a thread stands in a pool call. -/
inductive At
  /-- in no pool call -/
  | out
  /-- holds the lock of pool `p` (mpqp.c:210, 244, 775, 893, 941, 1052) -/
  | locked (p : Nat)
  /-- holds the lock of pool `p` and waits in `__mpq_create` (mpq.c:1029-1032) for thread `c` -/
  | creating (p c : Nat)
deriving DecidableEq, Repr

/-- A thread: a user's thread or the thread of a pool's queue. -/
structure Thread where
  /-- the pools it still is to call, in order -/
  todo : List Nat
  pos : At
  /-- false while the init function of a pool's queue runs in it (mpqp.c:148-170) -/
  ready : Bool
  /-- the pool it was started for (of no meaning for a user's thread) -/
  pool : Nat
deriving DecidableEq, Repr

/-- Data of the model of kernel/mpqp.c:136-207, kernel/mpq.c:1001-1046. -/
structure St where
  threads : List Thread
  /-- who holds the lock of each pool -/
  owner : Nat → Option Nat

/-- The pools used by the init function of each pool's queues (`q_init`, mpqp.c:166-167). -/
abbrev Prog := Nat → List Nat

inductive Act
  /-- an idle thread (a user's, or a queue's in one of its functions) starts to make calls -/
  | submit (t : Nat) (l : List Nat)
  /-- the thread takes the lock for its next call (mpqp.c:210, 244, 775, 893, 941, 1052) -/
  | lock (t : Nat)
  /-- it starts a new queue's thread (mpqp.c:180-183, mpq.c:1023) -/
  | create (t : Nat)
  /-- it releases the lock without (or after a failed attempt at) creating a queue -/
  | unlock (t : Nat)
  /-- the init function returns in a new queue's thread (mpqp.c:169), which reports to its
      creator -/
  | initDone (t : Nat)
  /-- the creator sees the report and releases the lock (mpq.c:1030-1032, mpqp.c:226, 259, 813) -/
  | resume (t : Nat)
deriving DecidableEq, Repr

/-- Belongs to the model of kernel/mpqp.c:136-207, kernel/mpq.c:1001-1046. -/
def setT (s : St) (t : Nat) (x : Thread) : St := { s with threads := s.threads.set t x }

/-- Gives the lock of `p` to `o` (mpqp.c:210) or to nobody (mpqp.c:226). -/
def setOwner (s : St) (p : Nat) (o : Option Nat) : St :=
  { s with owner := fun x => if x = p then o else s.owner x }

/-- One step of one thread; none when it cannot be made. Belongs to the model of kernel/mpqp.c:136-207, kernel/mpq.c:1001-1046. -/
def step (g : Prog) (s : St) : Act → Option St
  | .submit t l => match s.threads[t]? with
    | none => none
    | some x => if x.ready = true ∧ x.pos = .out ∧ x.todo = [] then some (setT s t { x with todo := l })
                else none
  | .lock t => match s.threads[t]? with
    | none => none
    | some x => match x.pos, x.todo with
      | .out, p :: l =>
        if s.owner p = none then some (setOwner (setT s t { x with todo := l, pos := .locked p }) p (some t))
        else none
      | _, _ => none
  | .create t => match s.threads[t]? with
    | none => none
    | some x => match x.pos with
      | .locked p =>
        let s1 := setT s t { x with pos := .creating p s.threads.length }
        some { s1 with threads := s1.threads ++ [{ todo := g p, pos := .out, ready := false, pool := p }] }
      | _ => none
  | .unlock t => match s.threads[t]? with
    | none => none
    | some x => match x.pos with
      | .locked p => some (setOwner (setT s t { x with pos := .out }) p none)
      | _ => none
  | .initDone t => match s.threads[t]? with
    | none => none
    | some x => if x.ready = false ∧ x.pos = .out ∧ x.todo = [] then some (setT s t { x with ready := true })
                else none
  | .resume t => match s.threads[t]? with
    | none => none
    | some x => match x.pos with
      | .creating p c => match s.threads[c]? with
        | none => none
        | some y => if y.ready = true then some (setOwner (setT s t { x with pos := .out }) p none)
                    else none
      | _ => none

/-- One event after the other, in the model of kernel/mpqp.c:136-207, kernel/mpq.c:1001-1046; no code of its own. -/
def run (g : Prog) (s : St) : List Act → Option St
  | [] => some s
  | a :: as => match step g s a with
    | none => none
    | some s' => run g s' as

/-- `n` user threads, no pool queue yet (mpqp.c: aosl_mpqp_create creates none). Belongs to the model of kernel/mpqp.c:136-207, kernel/mpq.c:1001-1046. -/
def init (n : Nat) : St :=
  { threads := List.replicate n { todo := [], pos := .out, ready := true, pool := 0 }, owner := fun _ => none }

end Verif.PoolInit
