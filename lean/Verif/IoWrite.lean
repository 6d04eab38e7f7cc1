/-!
# Writing to a registered fd: direct writes, the write queue, writability events

Models `aosl_write`/`____write` (kernel/iofd.c:716-801), `aosl_send`/`____send`, `aosl_sendto`/`____sendto`
(net/sk_utils.c:625-793), the write queue `w_queue_*` (include/kernel/iofd.h:31-83, iofd.c:200-206),
`__iofd_write_data` (iofd.c:208-245), the not-ready timeout (iofd.c:276-292) and the error path `f_event_and_close`
(iofd.c:581-596), for one file descriptor.

Simplifications.  The singly linked queue is a list of nodes.  `____write`, `____send` and `____sendto` are the same code up to
the low-level call and the extra bytes kept behind the queued data; they are one function with a `Tag` saying which
of them it was, with its flags and its destination.  A low-level write takes a prefix of what it was offered,
would block, or fails: the result is an input of the model, as is the result of `aosl_malloc`.
The error event and the close that follows it are one step.  An event callback that writes is a
later step of the history.  `uintptr_t`/`size_t` arithmetic does not wrap: `total_len` stays below 2^18.
-/

namespace Verif.IoWrite

/-- Belongs to the model of kernel/iofd.c:716-801, net/sk_utils.c:625-793, include/kernel/iofd.h:31-83. -/
abbrev Byte := UInt8

/-- `FD_MAX_WBUF_SIZE` (include/kernel/iofd.h:28). -/
def wbufMax : Nat := 131072

/-- Error numbers (include/api/aosl_errno.h:28, 29, 39, 99, 119; `AOSL_EBASE` is 1000). -/
def eAGAIN : Int := 1011
/-- A constant of the model of kernel/iofd.c:716-801, net/sk_utils.c:625-793, include/kernel/iofd.h:31-83. -/
def eNOMEM : Int := 1012
/-- A constant of the model of kernel/iofd.c:716-801, net/sk_utils.c:625-793, include/kernel/iofd.h:31-83. -/
def eINVAL : Int := 1022
/-- A constant of the model of kernel/iofd.c:716-801, net/sk_utils.c:625-793, include/kernel/iofd.h:31-83. -/
def eMSGSIZE : Int := 1090
/-- A constant of the model of kernel/iofd.c:716-801, net/sk_utils.c:625-793, include/kernel/iofd.h:31-83. -/
def eTIMEDOUT : Int := 1110

/-- Which call the bytes come from, with the information that must accompany them to the low-level write:
the flags (net/sk_utils.c:659-663) and the destination (sk_utils.c:730-735). -/
inductive Tag
  | write
  | send (flags : Nat)
  | sendto (flags : Nat) (addr : Nat)
deriving DecidableEq, Repr

/-- Which function put the bytes on the fd: the HAL function called directly by `____write`/`____send`/`____sendto`
(iofd.c:734, sk_utils.c:643, 716), or the `write_f` given at registration (iofd.c:224). -/
inductive Chan | hal | writeF
deriving DecidableEq, Repr

/-- The result of a low-level write: some bytes, `-AOSL_EAGAIN`, another error. Belongs to the model of kernel/iofd.c:716-801, net/sk_utils.c:625-793, include/kernel/iofd.h:31-83. -/
inductive WRes
  | took (n : Nat)
  | again
  | fail (e : Nat)
deriving DecidableEq, Repr

/-- `w_buffer_t` (include/kernel/iofd.h:31-36): the copied bytes, how many of them are already written
(`w_data - (node + 1)`), and the extra bytes. -/
structure Node where
  tag : Tag
  data : List Byte
  off : Nat
deriving DecidableEq, Repr

/-- Notifications to the event callback. Belongs to the model of kernel/iofd.c:716-801, net/sk_utils.c:625-793, include/kernel/iofd.h:31-83. -/
inductive Ev
  | ready
  | error (e : Int)
deriving DecidableEq, Repr

/-- The write side of `struct iofd` (include/kernel/iofd.h:91-130), the log of what reached the fd and the log of the events. -/
structure WFd where
  queue : List Node
  total : Nat
  notReady : Bool
  isOpen : Bool
  wire : List (Chan × Tag × List Byte)
  events : List Ev
deriving DecidableEq, Repr

/-- `__mpq_add_fd_argv` (iofd.c:327-343): empty queue; `IOFD_NOT_READY` for a connecting socket (sk_utils.c:238). -/
def init (notReady : Bool) : WFd := ⟨[], 0, notReady, true, [], []⟩

/-- `w_queue_space` (include/kernel/iofd.h:77-83). -/
def space (f : WFd) : Nat := if f.total < wbufMax then wbufMax - f.total else 0

/-- The `__queue_it` block (iofd.c:744-757, sk_utils.c:648-664, 721-736) and `w_queue_add` (iofd.h:47-58).
`len` is the length of the whole call, `rest` what is to be queued. -/
def enqueue (f : WFd) (tag : Tag) (rest : List Byte) (len : Nat) (memOk : Bool) : WFd × Int :=
  if memOk then
    ({ f with queue := f.queue ++ [⟨tag, rest, 0⟩], total := f.total + rest.length }, (len : Int))
  else (f, -eNOMEM)

/-- `____write`, `____send`, `____sendto` (iofd.c:716-760, sk_utils.c:625-667, 700-739). -/
def doWrite (f : WFd) (tag : Tag) (buf : List Byte) (res : WRes) (memOk : Bool) : WFd × Int :=
  if buf.length > wbufMax then (f, -eMSGSIZE)
  else if space f < buf.length then (f, -eAGAIN)
  else if f.queue ≠ [] ∨ f.notReady = true then enqueue f tag buf buf.length memOk
  else match res with
    | .again => (f, -eAGAIN)
    | .fail e => (f, -(e : Int))
    | .took n =>
      let k := min n buf.length
      if k = 0 then (f, 0)
      else
        let f' := { f with wire := f.wire ++ [(Chan.hal, tag, buf.take k)] }
        if k < buf.length then enqueue f' tag (buf.drop k) buf.length memOk
        else (f', (buf.length : Int))

/-- `aosl_write`, `aosl_send`, `aosl_sendto` (iofd.c:776-801, sk_utils.c:687-698, 766-793): an fd which is not registered is refused. -/
def write (f : WFd) (tag : Tag) (buf : List Byte) (res : WRes) (memOk : Bool) : WFd × Int :=
  if f.isOpen then doWrite f tag buf res memOk else (f, -eINVAL)

/-- How the loop of `__iofd_write_data` ends. Belongs to the model of kernel/iofd.c:716-801, net/sk_utils.c:625-793, include/kernel/iofd.h:31-83. -/
inductive Stop
  | empty
  | blocked
  | failed (e : Nat)
deriving DecidableEq, Repr

/-- The result of the loop of `__iofd_write_data`. Belongs to the model of kernel/iofd.c:716-801, net/sk_utils.c:625-793, include/kernel/iofd.h:31-83. -/
structure Drained where
  sent : List (Chan × Tag × List Byte)
  left : List Node
  freed : Nat
  stop : Stop
deriving DecidableEq, Repr

/-- The loop of `__iofd_write_data` (iofd.c:220-238) with `w_queue_remove_head` (iofd.h:60-75); the `i`-th call of `write_f` returns `o i`. -/
def drain (o : Nat → WRes) : Nat → List Node → Drained
  | _, [] => ⟨[], [], 0, .empty⟩
  | i, n :: ns =>
    match o i with
    | .again => ⟨[], n :: ns, 0, .blocked⟩
    | .fail e => ⟨[], n :: ns, 0, .failed e⟩
    | .took m =>
      let off := n.off + min m (n.data.length - n.off)
      let chunk := (Chan.writeF, n.tag, (n.data.drop n.off).take (min m (n.data.length - n.off)))
      if off < n.data.length then ⟨[chunk], { n with off := off } :: ns, 0, .blocked⟩
      else
        let r := drain o (i + 1) ns
        ⟨chunk :: r.sent, r.left, r.freed + n.data.length, r.stop⟩

/-- `f_event_and_close` (iofd.c:581-596): the error event, then the fd leaves the table and is closed. -/
def eventAndClose (f : WFd) (e : Int) : WFd :=
  if f.isOpen then { f with isOpen := false, events := f.events ++ [.error e] } else f

/-- `__iofd_write_data` (iofd.c:208-245), called for an fd still in the table. -/
def writable (f : WFd) (o : Nat → WRes) : WFd :=
  if f.isOpen then
    let r := drain o 0 f.queue
    let f' := { f with
      notReady := false,
      queue := r.left,
      total := f.total - r.freed,
      wire := f.wire ++ r.sent }
    match r.stop with
    | .empty => { f' with events := f'.events ++ [.ready] }
    | .blocked => f'
    | .failed e => eventAndClose f' (-(e : Int))
  else f

/-- `__iofd_not_ready_timeout` (iofd.c:276-292). -/
def timeout (f : WFd) : WFd := if f.notReady = true then eventAndClose f (-eTIMEDOUT) else f

/-- Steps of a history of one fd. -/
inductive Op
  | write (tag : Tag) (buf : List Byte) (res : WRes) (memOk : Bool)
  | writable (o : Nat → WRes)
  | timeout
  /-- `aosl_close`, `aosl_mpq_del_fd` (iofd.c:553-580, 498-514): the fd leaves the table -/
  | close

/-- One step; the result of a write is returned, 0 for the others. Belongs to the model of kernel/iofd.c:716-801, net/sk_utils.c:625-793, include/kernel/iofd.h:31-83. -/
def step (f : WFd) : Op → WFd × Int
  | .write t b r m => write f t b r m
  | .writable o => (writable f o, 0)
  | .timeout => (timeout f, 0)
  | .close => ({ f with isOpen := false }, 0)

/-- A history with the results of its steps. Belongs to the model of kernel/iofd.c:716-801, net/sk_utils.c:625-793, include/kernel/iofd.h:31-83. -/
def run : WFd → List Op → WFd × List (Op × Int)
  | f, [] => (f, [])
  | f, op :: ops =>
    let r := step f op
    let r' := run r.1 ops
    (r'.1, (op, r.2) :: r'.2)

/-! ## The public wrapper around the queue call -/

/-- `aosl_write` as called from another thread (iofd.c:776-801): `call` is what `__mpq_call_argv` gave: `none` if the function ran (with
result `r`), or the error number it left in `aosl_errno`.  `return_err` (include/kernel/err.h:77-86) turns values in
`[-4095, -1]` into -1 with `aosl_errno` set, and returns the others unchanged. -/
def apiResult (r : Int) (call : Option Nat) : Int :=
  let err : Int := match call with
    | none => r
    | some e => (e : Int)
  if -4095 ≤ err ∧ err ≤ -1 then -1 else err

end Verif.IoWrite
