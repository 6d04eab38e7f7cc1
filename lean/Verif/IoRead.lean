/-!
# Reading from a registered fd: the receive buffer, packet reassembly, datagrams

Models `__iofd_read_data` (kernel/iofd.c:73-198), `__iofd_better_move_buffer` (include/kernel/iofd.h:165-188),
the size checks and the buffer of `__mpq_add_fd_argv` (iofd.c:307-324, 335-338), and the error path
`f_event_and_close` (iofd.c:581-596), for one file descriptor.

Simplifications.  `post_f` is NULL in every call of the code base (sk_utils.c:238, 363, 451, 540, iofd.c:437, 454), so it is left out.
The extra bytes behind the buffer (iofd.c:76) are not part of the buffer and are left out.  The user's callbacks are a check function of
the bytes it is shown, and two predicates on the sequence of callbacks so far saying whether the last one closes
(`aosl_close`) or unregisters (`aosl_mpq_del_fd`) the fd.  The low-level read is an input: what it would return.
-/

namespace Verif.IoRead

/-- Belongs to the model of kernel/iofd.c:73-198, include/kernel/iofd.h:165-188, iofd.c:307-324, 335-338. -/
abbrev Byte := UInt8

/-- `AOSL_EINVAL` (include/api/aosl_errno.h:39). -/
def eINVAL : Int := 1022

/-- Calls of user callbacks: `chk_pkt_f`, `data_f`, `event_f` with an error. Belongs to the model of kernel/iofd.c:73-198, include/kernel/iofd.h:165-188, iofd.c:307-324, 335-338. -/
inductive Cb
  | chk (w : List Byte)
  | data (bs : List Byte)
  | error (e : Int)
deriving DecidableEq, Repr

/-- What the fd was registered with. Belongs to the model of kernel/iofd.c:73-198, include/kernel/iofd.h:165-188, iofd.c:307-324, 335-338. -/
structure Cfg where
  /-- `chk_pkt_f` -/
  chk : Option (List Byte → Int)
  /-- the `max_pkt_size` argument -/
  size : Nat
  /-- the last callback closes the fd -/
  closes : List Cb → Bool
  /-- the last callback unregisters the fd without closing it -/
  dels : List Cb → Bool

/-- `__mpq_add_fd_argv` (iofd.c:307-309): the sizes that are accepted (`FD_MAX_PACKET_SIZE_MIN`/`MAX`, include/kernel/iofd.h:24-25). -/
def Cfg.valid (c : Cfg) : Bool := !((c.chk.isSome && decide (c.size < 1024)) || decide (c.size > 4194304))

/-- `AOSL_I_ALIGN_PTR (max_pkt_size)` on a 64-bit machine (iofd.c:322). -/
def Cfg.maxPkt (c : Cfg) : Nat := (c.size + 7) / 8 * 8

/-- `buff_size` (iofd.c:75, 324). -/
def Cfg.buff (c : Cfg) : Nat := if c.chk.isSome then c.maxPkt * 2 else c.maxPkt

/-- The read side of `struct iofd` (include/kernel/iofd.h:91-130): the buffer at `r_head`, `r_data` and `r_tail` as offsets in it,
`IOFD_READ_RETURN_0`, whether the fd is valid, whether it is in the table; the log of the callbacks, the requests to the low-level read
(offset, length), the bytes read so far, a flag for a store outside the buffer. -/
structure RFd where
  mem : List Byte
  d : Nat
  t : Nat
  ret0 : Bool
  isOpen : Bool
  reg : Bool
  log : List Cb
  reqs : List (Nat × Nat)
  got : List Byte
  oob : Bool
deriving DecidableEq, Repr

/-- A freshly registered fd (iofd.c:324-338): the buffer's contents are arbitrary. -/
def init (mem : List Byte) : RFd := ⟨mem, 0, 0, false, true, true, [], [], [], false⟩

/-- The unconsumed bytes `[r_data, r_tail)`. Belongs to the model of kernel/iofd.c:73-198, include/kernel/iofd.h:165-188, iofd.c:307-324, 335-338. -/
def window (f : RFd) : List Byte := (f.mem.drop f.d).take (f.t - f.d)

/-- A callback is called; it may close or unregister the fd (iofd.c:498-514, 536-580).  Closing an fd that is no longer in the table closes the
descriptor but does not reach this object (iofd.c:633-635). -/
def call (c : Cfg) (f : RFd) (cb : Cb) : RFd :=
  let l := f.log ++ [cb]
  if c.closes l = true ∧ f.reg = true then { f with log := l, isOpen := false, reg := false }
  else if c.dels l then { f with log := l, reg := false }
  else { f with log := l }

/-- `f_event_and_close` (iofd.c:581-596).  If the fd is no longer in the table, the close fails with `-AOSL_ENONET` and leaves it as it is (iofd.c:480-484, 556-559). -/
def eventAndClose (c : Cfg) (f : RFd) (e : Int) : RFd :=
  if f.isOpen then
    let f' := call c f (.error e)
    if f'.isOpen = true ∧ f'.reg = true then { f' with isOpen := false, reg := false } else f'
  else f

/-- How the inner loop ends. Belongs to the model of kernel/iofd.c:73-198, include/kernel/iofd.h:165-188, iofd.c:307-324, 335-338. -/
inductive IExit
  | brk
  | ret (e : Int)
deriving DecidableEq, Repr

/-- The first part of an iteration (iofd.c:84-107): the number of bytes of the next packet. -/
def checkPkt (c : Cfg) (f : RFd) : RFd × Int :=
  match c.chk with
  | some k => if 0 < f.t - f.d then (call c f (.chk (window f)), k (window f)) else (f, ((f.t - f.d : Nat) : Int))
  | none => (f, ((f.t - f.d : Nat) : Int))

/-- `f->r_data += err` (iofd.c:143). -/
def advance (f : RFd) (n : Nat) : RFd := { f with d := f.d + n }

/-- `f->flags &= ~IOFD_READ_RETURN_0` (iofd.c:162), `f->flags |= IOFD_READ_RETURN_0` (iofd.c:189). -/
def setRet0 (f : RFd) (b : Bool) : RFd := { f with ret0 := b }

/-- The request made to `read_f` (iofd.c:178) is logged. -/
def request (c : Cfg) (f : RFd) : RFd := { f with reqs := f.reqs ++ [(f.t, c.buff - f.t)] }

/-- Whether `chk_pkt_f` is called (iofd.c:85). -/
def shown (c : Cfg) (f : RFd) : Bool := c.chk.isSome && decide (0 < f.t - f.d)

/-- The inner loop (iofd.c:81-167).  The first argument bounds the number of iterations; it is never exhausted (`inner_fuel`). -/
def inner (c : Cfg) : Nat → RFd → RFd × IExit
  | 0, f => (f, .brk)
  | fuel + 1, f =>
    let r := checkPkt c f
    let f1 := r.1
    if shown c f = true ∧ ¬ f1.isOpen = true then (f1, .ret 0)
    else if r.2 < 0 ∨ r.2 > ((f1.t - f1.d : Nat) : Int) then
      (eventAndClose c f1 (if r.2 < 0 then r.2 else -eINVAL), .ret (if r.2 > 0 then -eINVAL else r.2))
    else
      let n := r.2.toNat
      let f2 := if 0 < n ∨ f1.ret0 = true then call c f1 (.data ((window f1).take n)) else f1
      if (0 < n ∨ f1.ret0 = true) ∧ ¬ f2.isOpen = true then (f2, .ret 0)
      else
        let f3 := advance f2 n
        if f3.ret0 = true then
          if c.chk.isSome then (f3, .ret 0)
          else (setRet0 f3 false, .brk)
        else if n = 0 then (f3, .brk)
        else inner c fuel f3

/-- `__iofd_better_move_buffer` (include/kernel/iofd.h:165-188). -/
def better (c : Cfg) (f : RFd) : Bool :=
  match c.chk with
  | none => true
  | some _ =>
    decide (c.maxPkt * 2 - f.t < 1024) ||
    (decide (f.d > c.maxPkt) && decide (f.t - f.d < 1024)) ||
    (decide (f.t - f.d ≤ 96) && decide (f.d ≥ c.maxPkt / 2))

/-- The move of the unconsumed bytes to the head of the buffer (iofd.c:169-176). -/
def move (c : Cfg) (f : RFd) : RFd :=
  if better c f then
    { f with
      mem := window f ++ f.mem.drop (window f).length,
      d := 0,
      t := f.t - f.d }
  else f

/-- What the low-level read would do. Belongs to the model of kernel/iofd.c:73-198, include/kernel/iofd.h:165-188, iofd.c:307-324, 335-338. -/
inductive RRes
  /-- a stream: these are the bytes that have arrived, of which at most as many as asked for are taken, at most `k` + 1 -/
  | stream (arrived : List Byte) (k : Nat)
  /-- a datagram: what does not fit is dropped by the system -/
  | dgram (bs : List Byte)
  /-- end of the stream -/
  | eof
  | again
  | fail (e : Nat)
deriving DecidableEq, Repr

/-- The result of a low-level read of at most `len` bytes: bytes (none: 0 is returned), `-AOSL_EAGAIN`, another error.
As `recv` does, it returns 0 when asked for 0 bytes. Belongs to the model of kernel/iofd.c:73-198, include/kernel/iofd.h:165-188, iofd.c:307-324, 335-338. -/
inductive LRes
  | bytes (bs : List Byte)
  | again
  | fail (e : Nat)
deriving DecidableEq, Repr

/-- Belongs to the model of kernel/iofd.c:73-198, include/kernel/iofd.h:165-188, iofd.c:307-324, 335-338. -/
def lowRead (r : RRes) (len : Nat) : LRes :=
  match r with
  | .stream bs k => if len = 0 then .bytes [] else if bs = [] then .again else .bytes (bs.take (min len (k + 1)))
  | .dgram bs => .bytes (bs.take len)
  | .eof => .bytes []
  | .again => .again
  | .fail e => .fail e

/-- `read_f` stores the bytes at `r_tail`; `r_tail` advances (iofd.c:178, 191). -/
def store (f : RFd) (bs : List Byte) : RFd :=
  if f.t + bs.length ≤ f.mem.length then
    { f with
      mem := f.mem.take f.t ++ bs ++ f.mem.drop (f.t + bs.length),
      t := f.t + bs.length,
      got := f.got ++ bs }
  else { f with oob := true }

/-- Results of a whole call. Belongs to the model of kernel/iofd.c:73-198, include/kernel/iofd.h:165-188, iofd.c:307-324, 335-338. -/
inductive Exit
  | blocked
  | ret (e : Int)
deriving DecidableEq, Repr

/-- `__iofd_read_data` (iofd.c:73-198).  When the list of results is exhausted the read would block. -/
def readData (c : Cfg) : RFd → List RRes → RFd × Exit
  | f, rs =>
    let r := inner c (f.t - f.d + 1) f
    match r.2 with
    | .ret e => (r.1, .ret e)
    | .brk =>
      let g := request c (move c r.1)
      match rs with
      | [] => (g, .blocked)
      | x :: xs =>
        match lowRead x (c.buff - g.t) with
        | .again => (g, .blocked)
        | .fail e => (eventAndClose c g (-(e : Int)), .ret (-(e : Int)))
        | .bytes bs =>
          if bs = [] then readData c (setRet0 g true) xs
          else readData c (store g bs) xs

/-- Steps of a history: the fd is readable (the dispatcher looks the fd up in the table: et_mp.c:129-157), or it is closed from outside a callback. -/
inductive Op
  | readable (rs : List RRes)
  | close
deriving DecidableEq, Repr

/-- What one event does, in the model of kernel/iofd.c:73-198, include/kernel/iofd.h:165-188, iofd.c:307-324, 335-338. -/
def step (c : Cfg) (f : RFd) : Op → RFd
  | .readable rs => if f.reg then (readData c f rs).1 else f
  | .close => if f.reg then { f with isOpen := false, reg := false } else f

/-- One event after the other, in the model of kernel/iofd.c:73-198, include/kernel/iofd.h:165-188, iofd.c:307-324, 335-338; no code of its own. -/
def run (c : Cfg) : RFd → List Op → RFd
  | f, [] => f
  | f, op :: ops => run c (step c f op) ops

end Verif.IoRead
