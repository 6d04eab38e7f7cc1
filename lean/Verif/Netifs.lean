/-!
  Model of net/netifs.c: the interface cache. The kernel lists are sequences (C08 justifies this for the
  list primitives); a node is its identity (the address returned by the allocator) and its contents.
-/
namespace Verif.Netifs

/-- aosl_route.h aosl_netif_t: index, name, type. Belongs to the model of netifs.c:22-150. -/
structure Netif where
  index : Int
  name : List Char
  type : Int
  deriving DecidableEq, Repr

/-- netifs.c:22-26 struct netif_node -/
structure Node where
  id : Nat
  netif : Netif
  deriving DecidableEq, Repr

/-- netifs.c:28-30 __netifs_hash, __free_netifs; `fresh` is the allocator's next identity and `freed` the
    identities handed back to it. -/
structure State where
  hash : Nat → List Node
  free : List Node
  fresh : Nat
  freed : List Nat

/-- before netifs_hash_init; then netifs.c:120-126 -/
def State.init : State := ⟨fun _ => [], [], 0, []⟩

/-- netifs.c:38: idx & (IFINFO_HASH_SIZE - 1), for a non-negative int index -/
def hashOf (idx : Int) : Nat := idx.toNat % 16

/-- netifs.c:33-45 __netif_node_by_index -/
def find (s : State) (idx : Int) : Option Node := (s.hash (hashOf idx)).find? fun n => n.netif.index = idx

/-- netifs.c:47-59 netif_by_index -/
def netifByIndex (s : State) (idx : Int) : Option Netif :=
  if idx < 0 then none else (find s idx).map Node.netif

/-- `snprintf (if_name, 64, "%s", ...)`, with "" for NULL -/
def storedName : Option (List Char) → List Char
  | none => []
  | some t => t.take 63

/-- The outcomes, in the model of netifs.c:22-150. -/
inductive Res where
  | ok | einval | enoent | enomem
  deriving DecidableEq, Repr

/-- Belongs to the model of netifs.c:22-150. -/
def setBucket (s : State) (h : Nat) (l : List Node) : State :=
  { s with hash := fun i => if i = h then l else s.hash i }

/-- netifs.c:89-94: the name is rewritten only when it differs -/
def rename (old : List Char) : Option (List Char) → List Char
  | none => []
  | some t => if old = t then old else t.take 63

/-- netifs.c:61-118 update_netifs (del, ifindex, ifname, iftype); `memOk`: the allocator succeeds -/
def update (s : State) (memOk : Bool) (del : Bool) (idx : Int) (name : Option (List Char)) (type : Int) : State × Res :=
  if idx < 0 then (s, .einval)
  else
    let h := hashOf idx
    match find s idx with
    | some n =>
      if del then
        ({ setBucket s h ((s.hash h).erase n) with free := s.free ++ [n] }, .ok)
      else
        let n' : Node := ⟨n.id, ⟨n.netif.index, rename n.netif.name name, type⟩⟩
        (setBucket s h ((s.hash h).map fun m => if m.id = n.id then n' else m), .ok)
    | none =>
      if del then (s, .enoent)
      else
        match s.free with
        | n :: rest =>
          ({ setBucket s h (s.hash h ++ [⟨n.id, ⟨idx, storedName name, type⟩⟩]) with free := rest }, .ok)
        | [] =>
          if memOk then
            ({ setBucket s h (s.hash h ++ [⟨s.fresh, ⟨idx, storedName name, type⟩⟩]) with fresh := s.fresh + 1 }, .ok)
          else (s, .enomem)

/-- netifs.c:128-150 netifs_hash_fini: every node of every list is freed -/
def fini (s : State) : State :=
  { s with hash := fun _ => [], free := [],
           freed := s.freed ++ ((List.range 16).flatMap s.hash ++ s.free).map Node.id }

/-- The calls and events of the model of netifs.c:22-150. -/
inductive Op where
  | update (memOk : Bool) (del : Bool) (idx : Int) (name : Option (List Char)) (type : Int)
  | fini

/-- What one event does, in the model of netifs.c:22-150. -/
def step (s : State) : Op → State
  | .update m d i n t => (update s m d i n t).1
  | .fini => fini s

/-- One event after the other, in the model of netifs.c:22-150; no code of its own. -/
def run (s : State) (ops : List Op) : State := ops.foldl step s

end Verif.Netifs
