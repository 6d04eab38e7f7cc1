/-!
  Model of how the variadic user arguments travel to another queue: the `*_on_q` functions of
  net/sk_utils.c, kernel/iofd.c and kernel/timer.c, and the asynchronous resolver net/dns.c.
  A word (uintptr_t) is a `BitVec 64`.
-/
namespace Verif.OnQ

/-- Belongs to the model of dns.c:34-195, mpq.c:371-1351. -/
abbrev Word := BitVec 64

/-- include/kernel/mp_queue.h:250, include/api/aosl_defs.h:98 -/
abbrev ARGC_MAX : Nat := 64

/-- The functions that forward user arguments with a synchronous call. Belongs to the model of dns.c:34-195, mpq.c:371-1351. -/
inductive Fn where
  | addFd | listen | addDgram | addStream | connect | createTimer | setTimer
  deriving DecidableEq, Repr

/-- The constants in the code of one such function: `nfixed` internal arguments are stored at argv[0..],
    the user arguments at argv[slot..], `passed + argc` is the number of arguments passed on, and the
    function on the target queue takes `argc - skip` user arguments from argv[skip..]. Belongs to the model of dns.c:34-195, mpq.c:371-1351. -/
structure Layout where
  nfixed : Nat
  slot : Nat
  passed : Nat
  skip : Nat

/-- iofd.c:442-491; sk_utils.c:396-440; 485-530; 574-625; 286-337; timer.c:585-640; 757-815 -/
def layout : Fn → Layout
  | .addFd => ⟨8, 8, 8, 8⟩
  | .listen => ⟨5, 5, 5, 5⟩
  | .addDgram => ⟨5, 5, 5, 5⟩
  | .addStream => ⟨6, 6, 6, 6⟩
  | .connect => ⟨8, 9, 8, 9⟩
  | .createTimer => ⟨4, 4, 4, 4⟩
  | .setTimer => ⟨5, 5, 5, 5⟩

/-- the array built by the caller with alloca: `slot + argc` words, unset ones are `junk`. Belongs to the model of dns.c:34-195, mpq.c:371-1351. -/
def build (l : Layout) (junk : Word) (fixed user : List Word) : List Word :=
  fixed ++ List.replicate (l.slot - l.nfixed) junk ++ user

/-- The outcomes, in the model of dns.c:34-195, mpq.c:371-1351. -/
inductive Out where
  /-- the call returns this error and nothing runs on the target queue -/
  | e2big | einval
  /-- the target function saw these internal and user arguments -/
  | delivered (fixed user : List Word)
  /-- the target function reads beyond the argument array -/
  | ub
  deriving DecidableEq, Repr

/-- The target function: `mem` is the memory from argv on that it may read, `argc` the count it is given.
    The subtraction is that of uintptr_t. Belongs to the model of dns.c:34-195, mpq.c:371-1351. -/
def target (l : Layout) (mem : List Word) (argc : Nat) : Out :=
  let n := (BitVec.ofNat 64 argc - BitVec.ofNat 64 l.skip).toNat
  if l.nfixed ≤ mem.length ∧ l.skip + n ≤ mem.length then .delivered (mem.take l.nfixed) ((mem.drop l.skip).take n)
  else .ub

/-- The calling function. `qOk`: the queue id is valid; `same`: the caller is the target queue (the
    function is then called directly on the caller's array, mpq.c:1260-1291; otherwise the first
    `passed + argc` words are copied into the queue, mpq.c:371-470 and 1349-1357). -/
def onQ (f : Fn) (qOk same : Bool) (junk : Word) (fixed user : List Word) : Out :=
  let l := layout f
  let argc := user.length
  if argc > ARGC_MAX then .e2big
  else if qOk = false then .einval
  else if l.passed + argc > ARGC_MAX then .e2big
  else
    let a := build l junk fixed user
    target l (if same then a else a.take (l.passed + argc)) (l.passed + argc)

/-! ### Asynchronous resolve, net/dns.c -/

/-- an address as returned by the resolver (without port) and as stored for the requester. Belongs to the model of dns.c:34-195, mpq.c:371-1351. -/
structure Info where
  addr : Nat
  port : BitVec 16
  type : Nat
  prot : Nat
  deriving DecidableEq, Repr

/-- A constant of the model of dns.c:34-195, mpq.c:371-1351. -/
abbrev MAX_DNS_RES_CNT : Nat := 8

/-- dns.c:34-65 and 79-97: the loop over the results: index `i`, count so far `count`, the requester's
    array `mem` (a function: every index is defined, what may be written is the property).
    `capacity` is (unsigned int)addr_count. -/
def storeLoop (port : BitVec 16) (type prot capacity : Nat) : List Nat → Nat → (Nat → Info) → Nat × (Nat → Info)
  | [], count, mem => (count, mem)
  | a :: rest, count, mem =>
    if count < capacity then
      storeLoop port type prot capacity rest (count + 1) (fun j => if j = count then ⟨a, port, type, prot⟩ else mem j)
    else (count, mem)

/-- dns.c:34-65: `rescnt` is what aosl_hal_gethostbyname returns, `found` the array it filled -/
def resolveHost (rescnt : Int) (found : List Nat) (port : BitVec 16) (type prot : Nat) (addrCount : BitVec 64)
    (mem : Nat → Info) : Nat × (Nat → Info) :=
  if rescnt > 0 then
    storeLoop port type prot (addrCount.setWidth 32).toNat (found.take (min rescnt.toNat MAX_DNS_RES_CNT)) 0 mem
  else (0, mem)

/-- An invocation of the requester's function. Belongs to the model of dns.c:34-195, mpq.c:371-1351. -/
structure Reply where
  freeOnly : Bool
  args : List Word
  deriving DecidableEq, Repr

/-- Data of the model of dns.c:34-195, mpq.c:371-1351. -/
structure Req where
  host : Word
  port : BitVec 16
  type : Nat
  prot : Nat
  addrs : Word
  addrCount : BitVec 64
  user : List Word

/-- What the environment does: the worker pool accepts the function (dns.c:190), the resolver's answer, the
    requester's queue accepts the reply (dns.c:137). -/
structure Env where
  poolOk : Bool
  rescnt : Int
  found : List Nat
  replyOk : Bool

/-- The outcomes, in the model of dns.c:34-195, mpq.c:371-1351. -/
inductive Ret where
  | ok | eperm | e2big | poolError
  deriving DecidableEq, Repr

/-- dns.c:165-195 then, if accepted, 143-163 on the worker and 99-141. An accepted queueing is one
    invocation (C39); the reply carries no ref, so on the requester's queue it is not free-only. -/
def resolveAsync (r : Req) (e : Env) (mem : Nat → Info) : Ret × List Reply × (Nat → Info) :=
  let argc := r.user.length
  if argc > ARGC_MAX then (.eperm, [], mem)
  else
    -- mpqp.c:640-643
    if 9 + argc > ARGC_MAX then (.e2big, [], mem)
    else if e.poolOk = false then (.poolError, [], mem)
    else
      let (count, mem') := resolveHost e.rescnt e.found r.port r.type r.prot r.addrCount mem
      let args := [r.host, BitVec.ofNat 64 count, r.addrs] ++ r.user
      -- mpq.c:1351: E2BIG makes the queueing fail as well
      let queued := e.replyOk && decide (3 + argc ≤ ARGC_MAX)
      (.ok, [⟨!queued, args⟩], mem')

end Verif.OnQ
