/-! # The memory behind packets: the address of a sender, flags and destination of data that waits (C223, C224)

Models the layout of the block of a descriptor (kernel/iofd.c:322-346), `__default_recvfrom` (net/sk_utils.c:163-182) with the reading loop for packets
(kernel/iofd.c:74-203, no packet check and no `post_f`), and the layout of a waiting write (kernel/iofd.c:740-757, net/sk_utils.c:652-667, 741-755) with `__default_write`,
`__default_send` and `__default_sendto` (iofd.c:262-274, sk_utils.c:145-161, 184-208) in `__iofd_write_data` (iofd.c:222-238).

Addresses are numbers, a block is its address and its bytes; an access that is not inside the block has no result. `W` is `sizeof (void *)`. Simplified: the platform's call
writes the bytes it is given (Hal); flags are their four bytes, and `| MSG_DONTWAIT` is left out; `aosl_malloc` gives addresses that are multiples of `W`; what was in the memory before is arbitrary. -/
namespace Verif.PktMem

/-- include/kernel/kernel.h:22-27 AOSL_I_ALIGN_PTR, AOSL_P_ALIGN_PTR: for powers of two the mask is this division -/
def up (W x : Nat) : Nat := (x + (W - 1)) / W * W

/-- Data of the model of kernel/iofd.c:322-346, net/sk_utils.c:163-182, kernel/iofd.c:74-203. -/
structure Blk where
  base : Nat
  mem : List Nat
deriving DecidableEq, Repr

/-- Belongs to the model of kernel/iofd.c:322-346, net/sk_utils.c:163-182, kernel/iofd.c:74-203. -/
def rd (b : Blk) (a n : Nat) : Option (List Nat) :=
  if b.base ≤ a ∧ a + n ≤ b.base + b.mem.length then some ((b.mem.drop (a - b.base)).take n) else none

/-- Belongs to the model of kernel/iofd.c:322-346, net/sk_utils.c:163-182, kernel/iofd.c:74-203. -/
def wr (b : Blk) (a : Nat) (bs : List Nat) : Option Blk :=
  if b.base ≤ a ∧ a + bs.length ≤ b.base + b.mem.length then
    some { b with mem := b.mem.take (a - b.base) ++ bs ++ b.mem.drop (a - b.base + bs.length) } else none

/-! ## Reading -/

/-- Data of the model of kernel/iofd.c:322-346, net/sk_utils.c:163-182, kernel/iofd.c:74-203. -/
structure Cfg where
  W : Nat
  /-- `sizeof (struct iofd)` -/
  sz : Nat
  argc : Nat
  /-- as given by the user -/
  maxPkt : Nat

/-- `sizeof (struct recvfrom_args)` = `sizeof (aosl_sk_addr_t)`: aosl_hal_socket.h:43-52, aosl_socket.h:45-51, sk_utils.c:104-106 -/
def addrSz : Nat := 28

/-- kernel/iofd.c:323-326: `max_pkt_size` rounded up, no packet check -/
def buff (c : Cfg) : Nat := up c.W c.maxPkt

/-- kernel/iofd.c:327, sk_utils.c:450 -/
def blkSize (c : Cfg) : Nat := c.sz + c.argc * c.W + buff c + addrSz

/-- kernel/iofd.c:343 -/
def rHead (c : Cfg) (base : Nat) : Nat := base + c.sz + c.argc * c.W

/-- Data of the model of kernel/iofd.c:322-346, net/sk_utils.c:163-182, kernel/iofd.c:74-203. -/
structure Rd where
  blk : Blk
  rData : Nat
  rTail : Nat

/-- kernel/iofd.c:343-345 -/
def rd0 (c : Cfg) (b : Blk) : Rd := { blk := b, rData := rHead c b.base, rTail := rHead c b.base }

/-- One packet: kernel/iofd.c:174-181 (the buffer is moved, `chk_pkt_f` is NULL), 183 with sk_utils.c:170-173 and the platform's recvfrom, 191-195, and then 83-84, 118-140 with the pointer of line 77.
Result: what `data_f` sees, the data and the whole address. -/
def packet (c : Cfg) (s : Rd) (data addr : List Nat) : Option (Rd × (List Nat × List Nat)) := do
  let head := rHead c s.blk.base
  let kept ← rd s.blk s.rData (s.rTail - s.rData)
  let b1 ← wr s.blk head kept
  let tail := head + (s.rTail - s.rData)
  let len := buff c - (tail - head)
  let got := data.take len
  let b2 ← wr b1 tail got
  let b3 ← wr b2 (up c.W (tail + len)) addr
  let tail2 := tail + got.length
  let seen ← rd b3 head (tail2 - head)
  let a ← rd b3 (head + buff c) addrSz
  return ({ blk := b3, rData := head + (tail2 - head), rTail := tail2 }, (seen, a))

/-- the packets that are there, up to EAGAIN. Belongs to the model of kernel/iofd.c:322-346, net/sk_utils.c:163-182, kernel/iofd.c:74-203. -/
def packets (c : Cfg) : Rd → List (List Nat × List Nat) → Option (List (List Nat × List Nat))
  | _, [] => some []
  | s, (d, a) :: ps => do
    let (s', x) ← packet c s d a
    let xs ← packets c s' ps
    return x :: xs

/-! ## Waiting data -/

/-- What is kept with the data: nothing (aosl_write), flags (aosl_send), flags and destination (aosl_sendto). Belongs to the model of kernel/iofd.c:322-346, net/sk_utils.c:163-182, kernel/iofd.c:74-203. -/
inductive Kind
  | write
  | send (flags : List Nat)
  | sendto (flags addr : List Nat)
deriving DecidableEq, Repr

/-- `sizeof (int)`; `sizeof (struct sendto_args)` = 4 + 28 (sk_utils.c:107-110) -/
def extraSz : Kind → Nat
  | .write => 0
  | .send _ => 4
  | .sendto _ _ => 32

/-- `sizeof (w_buffer_t)`: include/kernel/iofd.h:30-35 -/
def hdr (W : Nat) : Nat := 4 * W

/-- iofd.c:742, sk_utils.c:653, 742 -/
def nodeSize (W n : Nat) (k : Kind) : Nat := hdr W + up W n + extraSz k

/-- Data of the model of kernel/iofd.c:322-346, net/sk_utils.c:163-182, kernel/iofd.c:74-203. -/
structure Node where
  blk : Blk
  wData : Nat
  wTail : Nat
  extra : Nat

/-- The `__queue_it` block on fresh memory `b` (sk_utils.c:657-666, 746-753; iofd.c:746-750). -/
def mkNode (W : Nat) (b : Blk) (data : List Nat) (k : Kind) : Option Node := do
  let w := b.base + hdr W
  let b1 ← wr b w data
  let tail := w + data.length
  let p := up W tail
  let b2 ← match k with
    | .write => some b1
    | .send f => wr b1 p f
    | .sendto f a => do
      let x ← wr b1 p f
      wr x (p + 4) a
  return { blk := b2, wData := w, wTail := tail, extra := extraSz k }

/-- the `write_f` of the descriptor. Belongs to the model of kernel/iofd.c:322-346, net/sk_utils.c:163-182, kernel/iofd.c:74-203. -/
inductive WF
  | write
  | send
  | sendto
deriving DecidableEq, Repr

/-- What the system is asked: the bytes, the flags (if any were given) and the destination. Belongs to the model of kernel/iofd.c:322-346, net/sk_utils.c:163-182, kernel/iofd.c:74-203. -/
structure Ask where
  bytes : List Nat
  flags : Option (List Nat)
  addr : Option (List Nat)
deriving DecidableEq, Repr

/-- One call of `write_f` (iofd.c:224; 262-274; sk_utils.c:145-161, 184-208). -/
def ask (W : Nat) (wf : WF) (n : Node) : Option Ask := do
  let len := n.wTail - n.wData
  let bytes ← rd n.blk n.wData len
  let p := up W (n.wData + len)
  match wf with
  | .write => return ⟨bytes, none, none⟩
  | .send =>
    if 4 ≤ n.extra then
      let f ← rd n.blk p 4
      return ⟨bytes, some f, none⟩
    else return ⟨bytes, none, none⟩
  | .sendto =>
    if 32 ≤ n.extra then
      let f ← rd n.blk p 4
      let a ← rd n.blk (p + 4) 28
      return ⟨bytes, some f, some a⟩
    else if 4 ≤ n.extra then
      let f ← rd n.blk p 4
      return ⟨bytes, some f, none⟩
    else return ⟨bytes, none, none⟩

/-- The data is written in several calls that take `took` bytes each (at most what they are offered), iofd.c:222-237. -/
def drain (W : Nat) (wf : WF) : Node → List Nat → Option (List Ask)
  | _, [] => some []
  | n, k :: ks => do
    let x ← ask W wf n
    let n' := { n with wData := n.wData + min k x.bytes.length }
    if n'.wData < n'.wTail then
      let xs ← drain W wf n' ks
      return x :: xs
    else return [x]

end Verif.PktMem
