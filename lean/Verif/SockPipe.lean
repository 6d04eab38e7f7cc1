/-!
# The wake-up socket pair of a queue on platforms without pipes

Models `os_socket_pipe` (kernel/osmp.c:190-237): two datagram sockets on the loopback address, the first one bound to a port chosen by a counter, and its release in `os_fini_sigp` (osmp.c:251-272).
`static int port` is shared by all queues; here each call of `os_socket_pipe` is one step (two threads that create queues at the same moment are not modelled).
-/

namespace Verif.SockPipe

/-- DEFAULT_SOCKET_PORT (osmp.c:195). -/
def base : Nat := 12543

/-- osmp.c:199: `port = ((port + 1) % 100) + DEFAULT_SOCKET_PORT` -/
def next (port : Nat) : Nat := (port + 1) % 100 + base

/-- The counter; the OS's sockets: for each open descriptor its local port (0: not one of the counter's ports); the number of the next descriptor. Belongs to the model of kernel/osmp.c:190-237, osmp.c:251-272. -/
structure St where
  port : Nat
  open_ : List (Nat × Nat)
  fresh : Nat
deriving DecidableEq, Repr

/-- The state at the beginning, in the model of kernel/osmp.c:190-237, osmp.c:251-272. -/
def init : St := ⟨base, [], 0⟩

/-- What the OS answers in one call of `os_socket_pipe`: can it create the first, the second socket, can it connect?  (It binds whenever the port is free.). Belongs to the model of kernel/osmp.c:190-237, osmp.c:251-272. -/
structure Env where
  sock1 : Bool
  sock2 : Bool
  conn : Bool
deriving DecidableEq, Repr

/-- `os_socket_pipe` (osmp.c:196-236): the pair of descriptors, or `none` for -1. -/
def create (s : St) (e : Env) : St × Option (Nat × Nat) :=
  let p := next s.port
  if !e.sock1 then ({ s with port := p }, none)
  else if p ∈ s.open_.map Prod.snd then ({ s with port := p, fresh := s.fresh + 1 }, none)
  -- the first socket stays open
  else if !e.sock2 then ({ port := p, open_ := (s.fresh, p) :: s.open_, fresh := s.fresh + 1 }, none)
  else if !e.conn then ({ s with port := p, fresh := s.fresh + 2 }, none)
  else ({ port := p, open_ := (s.fresh + 1, 0) :: (s.fresh, p) :: s.open_, fresh := s.fresh + 2 }, some (s.fresh, s.fresh + 1))

/-- The calls and events of the model of kernel/osmp.c:190-237, osmp.c:251-272. -/
inductive Op
  | create (e : Env)
  /-- the queue with these descriptors is destroyed -/
  | destroy (pr : Nat × Nat)
deriving DecidableEq, Repr

/-- The state, and the pairs of the queues that exist. Belongs to the model of kernel/osmp.c:190-237, osmp.c:251-272. -/
structure World where
  s : St
  live : List (Nat × Nat)
deriving DecidableEq, Repr

/-- The state at the beginning, in the model of kernel/osmp.c:190-237, osmp.c:251-272. -/
def World.init : World := ⟨SockPipe.init, []⟩

/-- What one event does, in the model of kernel/osmp.c:190-237, osmp.c:251-272. -/
def step (w : World) : Op → World
  | .create e => match create w.s e with
    | (s', some pr) => ⟨s', pr :: w.live⟩
    | (s', none) => ⟨s', w.live⟩
  | .destroy pr => if pr ∈ w.live then
      ⟨{ w.s with open_ := w.s.open_.filter (fun x => x.1 ≠ pr.1 ∧ x.1 ≠ pr.2) }, w.live.filter (· ≠ pr)⟩ else w

/-- One event after the other, in the model of kernel/osmp.c:190-237, osmp.c:251-272; no code of its own. -/
def run (w : World) (ops : List Op) : World := ops.foldl step w

/-- Everything the OS can give. Belongs to the model of kernel/osmp.c:190-237, osmp.c:251-272. -/
def good : Env := ⟨true, true, true⟩

end Verif.SockPipe
