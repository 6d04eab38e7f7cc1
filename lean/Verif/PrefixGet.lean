import Verif.NetUtil

/-!
# The IPv6 prefix a queue reports

Models /repo/net/ipv6.c:159-225 (setting the prefix of a queue and getting it), the release of the
prefix at the queue's end (/repo/kernel/mpq.c:748-749) and its start (mpq.c:866), with the memory
behind the pointer aosl_mpq_get_ipv6_prefix returns.
-/

namespace Verif.PrefixGet
open Verif.Words (Endian)
open Verif.NetUtil (Bytes isV4Mapped isNat64)

/-- A block of `aosl_malloc (12)` (ipv6.c:170). -/
structure Block where
  data : Bytes
  live : Bool

structure St where
  /-- every block ever allocated for the queue; a pointer is an index -/
  blocks : List Block
  /-- q->ipv6_prefix_96 -/
  cur : Option Nat
  /-- the queue exists -/
  alive : Bool
  /-- a block was freed twice or written after it was freed -/
  bad : Bool

/-- mpq.c:866 -/
def init : St := { blocks := [], cur := none, alive := true, bad := false }

/-- The calls and events of the model of net/ipv6.c:159-225, kernel/mpq.c:748-749, mpq.c:866. -/
inductive Op
  /-- aosl_mpq_set_ipv6_prefix_on_q with an address or NULL; `mem`: the allocation would succeed -/
  | set (a : Option Bytes) (mem : Bool)
  /-- the queue ends -/
  | destroy

/-- aosl_free. Belongs to the model of net/ipv6.c:159-225, kernel/mpq.c:748-749, mpq.c:866. -/
def free (s : St) (b : Nat) : St := match s.blocks[b]? with
  | none => { s with bad := true }
  | some x => { s with blocks := s.blocks.set b { x with live := false }, bad := s.bad || !x.live }

/-- memcpy of 12 bytes into a block (ipv6.c:173) -/
def write (s : St) (b : Nat) (a : Bytes) : St := match s.blocks[b]? with
  | none => { s with bad := true }
  | some x => { s with blocks := s.blocks.set b { x with data := fun i => if i < 12 then a i else x.data i },
                       bad := s.bad || !x.live }

/-- ipv6.c:159-180 -/
def update (e : Endian) (s : St) (a6 : Option Bytes) (mem : Bool) : St :=
  match a6 with
  | some a =>
    if isV4Mapped e a || isNat64 e a then s
    else match s.cur with
      | none =>
        if mem then
          write { s with blocks := s.blocks ++ [{ data := fun _ => 0#8, live := true }], cur := some s.blocks.length }
            s.blocks.length a
        else s
      | some b => write s b a
  | none => match s.cur with
    | none => s
    | some b => { free s b with cur := none }

/-- ipv6.c:194-216 (a queue that is gone is refused) and mpq.c:748-749 -/
def step (e : Endian) (s : St) : Op → St
  | .set a mem => if s.alive then update e s a mem else s
  | .destroy =>
    if s.alive then
      match s.cur with
      | none => { s with alive := false }
      | some b => { free s b with cur := none, alive := false }
    else s

/-- One event after the other, in the model of net/ipv6.c:159-225, kernel/mpq.c:748-749, mpq.c:866; no code of its own. -/
def run (e : Endian) (s : St) (ops : List Op) : St := ops.foldl (step e) s

/-- aosl_mpq_get_ipv6_prefix, ipv6.c:218-225, in the queue's own thread -/
def get (s : St) : Option Nat := if s.alive then s.cur else none

/-- The caller reads `k` bytes behind the pointer; `none`: undefined behaviour. Belongs to the model of net/ipv6.c:159-225, kernel/mpq.c:748-749, mpq.c:866. -/
def read (s : St) (b k : Nat) : Option (List (BitVec 8)) := match s.blocks[b]? with
  | none => none
  | some x => if x.live ∧ k ≤ 12 then some ((List.range k).map x.data) else none

end Verif.PrefixGet
