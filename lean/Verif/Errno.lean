/-!
# aosl_errno

Models lib/errno.c:17-75 (`k_errno_fini`, `aosl_errno_ptr`) with `aosl_list_add` (include/api/aosl_list.h) on the list `s_err_list`, for any number of threads.

The thread-local store is a map from threads to blocks (what `k_tls_key_get` and `k_tls_key_set` do is in Tls; here thread ids are not reused).  `aosl_list_add` reads `head->next` in one step and
writes it in another one: nothing protects `s_err_list`.  Only the forward links are modelled: `aosl_list_remove_head_entry` follows these.
A failing `aosl_malloc` aborts (C111).
-/

namespace Verif.Errno

/-- Where a thread is in `aosl_errno_ptr` (errno.c:49-75). -/
inductive Pc
  | idle
  /-- it has found no block and allocated block `b` and its list node; `aosl_list_add` comes next -/
  | alloc (b : Nat)
  /-- it has read `head->next`, the writes come next -/
  | read (b : Nat) (next : Option Nat)
  /-- the node is in the list; `k_tls_key_set` and `*errno_ptr = 0` come next -/
  | added (b : Nat)
deriving DecidableEq, Repr

/-- `s_err_list.next` (`none`: the list head itself), the forward links of the nodes, the thread-local values, the blocks' contents, the number of blocks so far, the threads; the blocks freed by `k_errno_fini`. Belongs to the model of lib/errno.c:17-75. -/
structure St where
  head : Option Nat
  next : Nat → Option Nat
  tls : Nat → Option Nat
  val : Nat → Option Int
  fresh : Nat
  pcs : List Pc
  freed : List Nat

/-- The state at the beginning, in the model of lib/errno.c:17-75. -/
def init (threads : Nat) : St := ⟨none, fun _ => none, fun _ => none, fun _ => none, 0, List.replicate threads .idle, []⟩

/-- A table changed at one place, as an assignment to one element or one object does; used in the model of lib/errno.c:17-75. -/
def upd {α : Type} (f : Nat → α) (i : Nat) (a : α) : Nat → α := fun j => if j = i then a else f j

/-- The calls and events of the model of lib/errno.c:17-75. -/
inductive Op
  /-- thread `t` calls `aosl_errno_ptr`: the look-up and the two allocations -/
  | enter (t : Nat)
  /-- its next step -/
  | go (t : Nat)
  /-- `aosl_errno = v` in thread `t`, which has its block -/
  | store (t : Nat) (v : Int)
deriving DecidableEq, Repr

/-- One step. Belongs to the model of lib/errno.c:17-75. -/
def step (s : St) : Op → St
  | .enter t => match s.pcs[t]? with
    | some .idle => match s.tls t with
      | some _ => s
      | none => { s with fresh := s.fresh + 1, pcs := s.pcs.set t (.alloc s.fresh) }
    | _ => s
  | .go t => match s.pcs[t]? with
    | some (.alloc b) => { s with pcs := s.pcs.set t (.read b s.head) }
    | some (.read b n) => { s with next := upd s.next b n, head := some b, pcs := s.pcs.set t (.added b) }
    | some (.added b) => { s with tls := upd s.tls t (some b), val := upd s.val b (some 0), pcs := s.pcs.set t .idle }
    | _ => s
  | .store t v => match s.pcs[t]? with
    | some .idle => match s.tls t with
      | some b => { s with val := upd s.val b (some v) }
      | none => s
    | _ => s

/-- One event after the other, in the model of lib/errno.c:17-75; no code of its own. -/
def run (s : St) (ops : List Op) : St := ops.foldl step s

/-- What `aosl_errno` is in thread `t`: a first use gives 0. Belongs to the model of lib/errno.c:17-75. -/
def errno (s : St) (t : Nat) : Option Int := match s.tls t with
  | some b => s.val b
  | none => some 0

/-- The nodes reached from `p` in at most `n` steps. Belongs to the model of lib/errno.c:17-75. -/
def chain (next : Nat → Option Nat) : Nat → Option Nat → List Nat
  | 0, _ => []
  | _, none => []
  | n + 1, some b => b :: chain next n (next b)

/-- `k_errno_fini` (errno.c:34-47): frees the nodes from the list's head until it is empty. -/
def fini (s : St) : St := { s with head := none, freed := s.freed ++ chain s.next s.fresh s.head }

/-! ## Specification -/

/-- The value last stored by thread `t`; 0 before. Belongs to the model of lib/errno.c:17-75. -/
def spec (t : Nat) : List (Nat × Int) → Int
  | [] => 0
  | (u, v) :: l => if u = t then v else spec t l

/-- The stores that took place, the latest one first. Belongs to the model of lib/errno.c:17-75. -/
def stores : St → List Op → List (Nat × Int)
  | _, [] => []
  | s, op :: ops => stores (step s op) ops ++ (match op with
    | .store t v => if s.pcs[t]? = some .idle ∧ (s.tls t).isSome then [(t, v)] else []
    | _ => [])

end Verif.Errno
