/-!
# Thread-local storage

Models lib/tls.c: the key table (`alloc_tls_key`, `free_tls_key`, tls.c:35-103) and the tables of the threads (`k_tls_key_get`, `k_tls_key_set`, tls.c:166-279),
behind lib/thread_api.c:21-46 (`aosl_tls_key_create/get/set/delete`).

`create` and `delete` are atomic (they hold `tls_key_id_lock` for writing).  `get` and `set` are two steps: reading the key's slot (under the lock), then working on the
calling thread's own table, which only that thread touches (tls.c:237-242); other threads' steps may come in between.  The red-black tree of the
threads (C01-C07) is a function from thread ids to tables; a thread without a node is one with an empty table
(tls.c:189: `key >= tls_key_table_size` gives NULL in both cases).  The key bitmap (C15-C17) is a list of flags; its size is a `uint8_t` (`bitmap_create`, bitmap.c:16).  Keys are natural numbers (negative ones are refused like
those beyond the table).  Pointers are numbers, NULL is 0.  Sequence numbers do not wrap (2^63 creations of the same key on 64-bit machines).
`aosl_malloc` failing in `set` aborts and is not modelled; in `create` it is the flag `mem`.
-/

namespace Verif.Tls

/-- A bit of `tls_key_id_bits` and the entry of `tls_slot_table` (tls.c:20-23, 28-30). -/
structure Slot where
  used : Bool
  seq : Nat
deriving DecidableEq, Repr

/-- `struct k_tls_value` (tls.c:130-133). -/
structure Ent where
  seq : Nat
  val : Nat
deriving DecidableEq, Repr

/-- A call of a thread. Belongs to the model of tls.c:35-103, tls.c:166-279, lib/thread_api.c:21-46. -/
inductive Call
  | get (k : Nat)
  | set (k v : Nat)
deriving DecidableEq, Repr

/-- Belongs to the model of tls.c:35-103, tls.c:166-279, lib/thread_api.c:21-46. -/
def Call.key : Call → Nat
  | .get k => k
  | .set k _ => k

/-- The key table, the threads' tables by thread id, and for each thread the call it is in with the sequence number it has read. Belongs to the model of tls.c:35-103, tls.c:166-279, lib/thread_api.c:21-46. -/
structure St where
  slots : List Slot
  tbl : Nat → List Ent
  pend : Nat → Option (Call × Nat)

/-- `rb_tls_init` (tls.c:286-300), `STATIC_TLS_KEY_ID_SIZE`. -/
def init : St := ⟨List.replicate 16 ⟨false, 0⟩, fun _ => [], fun _ => none⟩

/-- A table changed at one place, as an assignment to one element or one object does; used in the model of tls.c:35-103, tls.c:166-279, lib/thread_api.c:21-46. -/
def upd {α : Type} (f : Nat → α) (t : Nat) (a : α) : Nat → α := fun x => if x = t then a else f x

/-- The outcomes, in the model of tls.c:35-103, tls.c:166-279, lib/thread_api.c:21-46. -/
inductive Res
  | key (k : Nat)
  | err (e : Int)
  | ok
  | val (v : Nat)
  /-- the call goes on -/
  | busy
deriving DecidableEq, Repr

/-- A constant of the model of tls.c:35-103, tls.c:166-279, lib/thread_api.c:21-46. -/
def eINVAL : Int := -1022
/-- A constant of the model of tls.c:35-103, tls.c:166-279, lib/thread_api.c:21-46. -/
def eNOMEM : Int := -1012
/-- A constant of the model of tls.c:35-103, tls.c:166-279, lib/thread_api.c:21-46. -/
def eOVERFLOW : Int := -1075

/-- The calls and events of the model of tls.c:35-103, tls.c:166-279, lib/thread_api.c:21-46. -/
inductive Op
  | create (mem : Bool)
  | delete (k : Nat)
  /-- thread `t` enters the call and reads the slot -/
  | begin (t : Nat) (c : Call)
  /-- thread `t` finishes its call -/
  | finish (t : Nat)
  /-- thread `t` ends; a later thread with the same id is another thread -/
  | exit (t : Nat)
deriving DecidableEq, Repr

/-- `bitmap_set`, `seq++` (tls.c:77-79). -/
def take (s : St) (slots : List Slot) (k : Nat) : St := { s with slots := slots.modify k (fun x => ⟨true, x.seq + 1⟩) }

/-- `bitmap_find_first_zero_bit` (bitmap.c:110-140). -/
def firstFree (slots : List Slot) : Option Nat := slots.findIdx? (fun x => !x.used)

/-- `alloc_tls_key` (tls.c:35-83). -/
def create (s : St) (mem : Bool) : St × Res :=
  match firstFree s.slots with
  | some k => (take s s.slots k, .key k)
  | none =>
    if s.slots.length ≥ 512 then (s, .err eOVERFLOW)
    -- `bitmap_create (new_size)` takes a `uint8_t`, and gives NULL for 0
    else if (s.slots.length + 16) % 256 = 0 ∨ mem = false then (s, .err eNOMEM)
    else
      let grown := s.slots ++ List.replicate 16 ⟨false, 0⟩
      match firstFree grown with
      | some k => (take s grown k, .key k)
      | none => (s, .err eNOMEM) -- BUG_ON, cannot happen

/-- `free_tls_key` (tls.c:85-99). -/
def delete (s : St) (k : Nat) : St × Res :=
  if k ≥ s.slots.length then (s, .err eINVAL)
  else ({ s with slots := s.slots.modify k (fun x => ⟨false, x.seq + 1⟩) }, .ok)

/-- The first half of `k_tls_key_get` and `k_tls_key_set` (tls.c:174-182, 212-220); `__KEY_USED` is oddness of the sequence number. -/
def begin_ (s : St) (t : Nat) (c : Call) : St × Res :=
  let fail := match c with
    | .get _ => Res.val 0
    | .set _ _ => Res.err eINVAL
  match s.slots[c.key]? with
  | none => (s, fail)
  | some x => if x.seq % 2 = 1 then ({ s with pend := upd s.pend t (some (c, x.seq)) }, .busy) else (s, fail)

/-- The second half of `k_tls_key_get` (tls.c:184-204). -/
def finishGet (tbl : List Ent) (k seq : Nat) : List Ent × Res :=
  match tbl[k]? with
  | none => (tbl, .val 0)
  | some e => if e.val ≠ 0 ∧ e.seq ≠ seq then (tbl.set k ⟨e.seq, 0⟩, .val 0) else (tbl, .val e.val)

/-- The second half of `k_tls_key_set` (tls.c:222-278): the table is created or enlarged to the current number of keys. -/
def finishSet (size : Nat) (tbl : List Ent) (k seq v : Nat) : List Ent × Res :=
  let tbl' := if k ≥ tbl.length then tbl ++ List.replicate (size - tbl.length) ⟨0, 0⟩ else tbl
  (tbl'.set k ⟨seq, v⟩, .ok)

/-- Belongs to the model of tls.c:35-103, tls.c:166-279, lib/thread_api.c:21-46. -/
def finish (s : St) (t : Nat) : St × Res :=
  match s.pend t with
  | none => (s, .busy)
  | some (.get k, seq) =>
    let r := finishGet (s.tbl t) k seq
    ({ s with tbl := upd s.tbl t r.1, pend := upd s.pend t none }, r.2)
  | some (.set k v, seq) =>
    let r := finishSet s.slots.length (s.tbl t) k seq v
    ({ s with tbl := upd s.tbl t r.1, pend := upd s.pend t none }, r.2)

/-- One step.  When a thread ends nothing happens: its node stays in the tree (only `rb_tls_fini`, tls.c:302-314, frees the nodes). -/
def step (s : St) : Op → St × Res
  | .create mem => create s mem
  | .delete k => delete s k
  | .begin t c => match s.pend t with
    | some _ => (s, .busy)
    | none => begin_ s t c
  | .finish t => finish s t
  | .exit _ => (s, .ok)

/-- One event after the other, in the model of tls.c:35-103, tls.c:166-279, lib/thread_api.c:21-46; no code of its own. -/
def run : St → List Op → St × List Res
  | s, [] => (s, [])
  | s, op :: ops => ((run (step s op).1 ops).1, (step s op).2 :: (run (step s op).1 ops).2)

/-! ## Specification

Each creation of a key makes a new incarnation of it.  A thread has one value for each incarnation, NULL until it stores one.  A call takes effect on the
incarnation that exists when the call begins. -/

/-- Whether the key exists, how often it was created, each thread's values, the calls in progress with the incarnation they refer to. Belongs to the model of tls.c:35-103, tls.c:166-279, lib/thread_api.c:21-46. -/
structure Spec where
  live : Nat → Bool
  gen : Nat → Nat
  store : Nat → Nat → Nat → Nat
  pend : Nat → Option (Call × Nat)

/-- Belongs to the model of tls.c:35-103, tls.c:166-279, lib/thread_api.c:21-46. -/
def spec0 : Spec := ⟨fun _ => false, fun _ => 0, fun _ _ _ => 0, fun _ => none⟩

/-- The cases distinguished in the model of tls.c:35-103, tls.c:166-279, lib/thread_api.c:21-46. -/
inductive SpecStep (a : Spec) : Op → Res → Spec → Prop
  | create (mem : Bool) (k : Nat) (h : a.live k = false) :
      SpecStep a (.create mem) (.key k) { a with live := upd a.live k true, gen := upd a.gen k (a.gen k + 1) }
  | createFail (mem : Bool) (e : Int) : SpecStep a (.create mem) (.err e) a
  | delete (k : Nat) (h : a.live k = true) : SpecStep a (.delete k) .ok { a with live := upd a.live k false }
  | deleteFail (k : Nat) (h : a.live k = false) : SpecStep a (.delete k) (.err eINVAL) a
  | getDead (t k : Nat) (hp : a.pend t = none) (h : a.live k = false) : SpecStep a (.begin t (.get k)) (.val 0) a
  | setDead (t k v : Nat) (hp : a.pend t = none) (h : a.live k = false) : SpecStep a (.begin t (.set k v)) (.err eINVAL) a
  | begin (t : Nat) (c : Call) (hp : a.pend t = none) (h : a.live c.key = true) :
      SpecStep a (.begin t c) .busy { a with pend := upd a.pend t (some (c, a.gen c.key)) }
  | inCall (t : Nat) (c : Call) (hp : a.pend t ≠ none) : SpecStep a (.begin t c) .busy a
  | get (t k n : Nat) (hp : a.pend t = some (.get k, n)) : SpecStep a (.finish t) (.val (a.store t k n)) { a with pend := upd a.pend t none }
  | set (t k v n : Nat) (hp : a.pend t = some (.set k v, n)) :
      SpecStep a (.finish t) .ok { a with
        pend := upd a.pend t none
        store := upd a.store t (upd (a.store t) k (upd (a.store t k) n v)) }
  | idle (t : Nat) (hp : a.pend t = none) : SpecStep a (.finish t) .busy a
  /-- a new thread has no values -/
  | exit (t : Nat) : SpecStep a (.exit t) .ok { a with store := upd a.store t (fun _ _ => 0) }

/-- The cases distinguished in the model of tls.c:35-103, tls.c:166-279, lib/thread_api.c:21-46. -/
inductive SpecRun : Spec → List (Op × Res) → Spec → Prop
  | nil (a : Spec) : SpecRun a [] a
  | cons {a b c : Spec} {op : Op} {r : Res} {l : List (Op × Res)} (h : SpecStep a op r b) (t : SpecRun b l c) : SpecRun a ((op, r) :: l) c

/-- Proper use, from the point of view of the program: `live` are the keys it has created and not deleted, `dead` the ids of ended threads.  Only existing keys are deleted, and no
thread gets the id of an ended thread. Belongs to the model of tls.c:35-103, tls.c:166-279, lib/thread_api.c:21-46. -/
def Proper (live dead : Nat → Bool) : List (Op × Res) → Prop
  | [] => True
  | (.create _, .key k) :: l => Proper (upd live k true) dead l
  | (.delete k, _) :: l => live k = true ∧ Proper (upd live k false) dead l
  | (.begin t _, _) :: l => dead t = false ∧ Proper live dead l
  | (.finish t, _) :: l => dead t = false ∧ Proper live dead l
  | (.exit t, _) :: l => Proper live (upd dead t true) l
  | _ :: l => Proper live dead l

end Verif.Tls
