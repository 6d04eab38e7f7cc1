/-
  Model of the thread bookkeeping of the ports, as the library uses it: k_thread_create starts a thread and detaches it at once (kernel/thread.c:74-119); it never
  joins or destroys one. One model per port: windows, xr872, tw82x, ac791n, ipro7.
-/
namespace Verif.PortThread

/-- A table changed at one place, as an assignment to one element or one object does; used in the model of kernel/thread.c:74-119. -/
def upd (f : Nat → β) (i : Nat) (v : β) : Nat → β := fun j => if j = i then v else f j

/-! ## windows (platform/src/windows/aosl_hal_thread.c:13-93, 171-254, 282-285, 372-405) -/
namespace Win

/-- A record of a thread (lines 13-20). `live`: the system's thread exists; `wrapped`: the end of thread_entry_wrapper (179-201) was executed; `reg`: the creator has
    put the record into the list; `handle`: the handle is open; `freed`: the record's memory is gone. -/
structure Node where
  tid : Nat
  live : Bool
  wrapped : Bool
  reg : Bool
  detached : Bool
  finished : Bool
  handle : Bool
  freed : Bool
deriving DecidableEq, Repr

/-- Data of the model of platform/src/windows/aosl_hal_thread.c:13-93, 171-254, 282-285, 372-405. -/
structure St where
  cnt : Nat
  node : Nat → Node
  /-- g_thread_list, newest first -/
  list : List Nat
  /-- freed memory was used, something freed or closed twice -/
  bad : Bool

/-- The state at the beginning, in the model of platform/src/windows/aosl_hal_thread.c:13-93, 171-254, 282-285, 372-405. -/
def St.init : St := ⟨0, fun _ => ⟨0, false, false, false, false, false, false, false⟩, [], false⟩

/-- find_thread_node (59-79) -/
def lookup (s : St) (t : Nat) : Option Nat := s.list.find? fun i => (s.node i).tid == t

inductive Act where
  /-- 232-245: the system makes the thread with id `t`; the new record has the number `cnt` -/
  | create (t : Nat)
  /-- 247-250: the creator lists the record -/
  | register (i : Nat)
  /-- 372-405, called by k_thread_create with the id it was given -/
  | detach (i : Nat)
  /-- 175-201: the thread's function has returned -/
  | finish (i : Nat)
  /-- 203: the thread ends -/
  | done (i : Nat)
  /-- 282-285: aosl_hal_thread_exit: the thread ends without 179-201 -/
  | exit (i : Nat)
deriving DecidableEq, Repr

/-- `none`: not possible. The system gives an id only if no thread has it and no handle of a thread with it is open. -/
def step (s : St) : Act → Option St
  | .create t =>
    if (∀ i, i < s.cnt → ((s.node i).live = true ∨ (s.node i).handle = true) → (s.node i).tid ≠ t) then
      some { s with cnt := s.cnt + 1, node := upd s.node s.cnt ⟨t, true, false, false, false, false, true, false⟩ }
    else none
  | .register i =>
    if i < s.cnt ∧ (s.node i).reg = false then
      if (s.node i).freed then some { s with bad := true }
      else some { s with node := upd s.node i { s.node i with reg := true }, list := i :: s.list }
    else none
  | .detach i =>
    if i < s.cnt ∧ (s.node i).reg = true then
      match lookup s (s.node i).tid with
      | none => some s
      | some k =>
        let n := s.node k
        if n.freed then some { s with bad := true }
        else if n.detached then some s
        else if n.finished then
          some { s with node := upd s.node k { n with detached := true, handle := false, freed := true }, list := s.list.erase k }
        else some { s with node := upd s.node k { n with detached := true, handle := false } }
    else none
  | .finish i =>
    if i < s.cnt ∧ (s.node i).live = true ∧ (s.node i).wrapped = false then
      let n := s.node i
      if n.freed then some { s with bad := true }
      else if n.detached then
        let l := match lookup s n.tid with
          | none => s.list
          | some k => s.list.erase k
        -- 188-189: the handle was closed by the detaching thread
        some { s with node := upd s.node i { n with finished := true, wrapped := true, handle := false, freed := true }, list := l }
      else some { s with node := upd s.node i { n with finished := true, wrapped := true } }
    else none
  | .done i =>
    if i < s.cnt ∧ (s.node i).live = true ∧ (s.node i).wrapped = true then some { s with node := upd s.node i { s.node i with live := false } } else none
  | .exit i =>
    if i < s.cnt ∧ (s.node i).live = true ∧ (s.node i).wrapped = false then some { s with node := upd s.node i { s.node i with live := false } } else none

end Win

/-! ## xr872 (platform/src/xr872/aosl_hal_thread.c:24-36, 91-97, 159-216, 223-281) -/
namespace Xr

/-- `list`: aosl_pthread_task_head, newest first; thread numbers are the records' addresses. The sections under the lock are one action. Belongs to the model of platform/src/xr872/aosl_hal_thread.c:24-36, 91-97, 159-216, 223-281. -/
structure St where
  cnt : Nat
  live : Nat → Bool
  list : List Nat
  freed : Nat → Nat

/-- The state at the beginning, in the model of platform/src/xr872/aosl_hal_thread.c:24-36, 91-97, 159-216, 223-281. -/
def St.init : St := ⟨0, fun _ => false, [], fun _ => 0⟩

inductive Act where
  /-- 159-214; `ok`: OS_ThreadCreate succeeds -/
  | create (ok : Bool)
  /-- 91-97 and 223-254: the thread's function returns, or it calls aosl_hal_thread_exit -/
  | exit (i : Nat)
deriving DecidableEq, Repr

/-- What one event does, in the model of platform/src/xr872/aosl_hal_thread.c:24-36, 91-97, 159-216, 223-281. -/
def step (s : St) : Act → Option St
  | .create ok =>
    if ok then some { s with cnt := s.cnt + 1, live := upd s.live s.cnt true, list := s.cnt :: s.list }
    else some { s with cnt := s.cnt + 1, freed := upd s.freed s.cnt (s.freed s.cnt + 1) }
  | .exit i =>
    if s.live i then
      some { s with
        live := upd s.live i false
        list := s.list.erase i
        freed := upd s.freed i (s.freed i + if i ∈ s.list then 1 else 0) }
    else none

/-- 255-281 aosl_hal_thread_self: `own`: a thread of the library by its number, `foreign`: a thread made by somebody else; `none` is NULL -/
inductive Who where
  | own (i : Nat)
  | foreign (k : Nat)
deriving DecidableEq, Repr

/-- Belongs to the model of platform/src/xr872/aosl_hal_thread.c:24-36, 91-97, 159-216, 223-281. -/
def self (s : St) : Who → Option Nat
  | .own i => if i ∈ s.list then some i else none
  | .foreign _ => none

end Xr

/-! ## tw82x (platform/src/tw82x/aosl_hal_thread.c:19-107, 135-223, 295-298) -/
namespace Tw

/-- `slots`: aosl_threads; a slot holds the number of the record; `used`: records made; `ended`: threads that have ended. Belongs to the model of platform/src/tw82x/aosl_hal_thread.c:19-107, 135-223, 295-298. -/
structure St where
  slots : List (Option Nat)
  used : Nat
  ended : List Nat
deriving DecidableEq, Repr

/-- Belongs to the model of platform/src/tw82x/aosl_hal_thread.c:19-107, 135-223, 295-298. -/
def max : Nat := 32

/-- The state at the beginning, in the model of platform/src/tw82x/aosl_hal_thread.c:19-107, 135-223, 295-298. -/
def St.init : St := ⟨List.replicate max none, 0, []⟩

/-- aosl_thread_set (38-50): the first free slot -/
def set : List (Option Nat) → Nat → Option (List (Option Nat))
  | [], _ => none
  | none :: l, k => some (some k :: l)
  | some x :: l, k => (set l k).map (some x :: ·)

inductive Act where
  /-- aosl_hal_thread_create with memory available; `ok`: os_task_create succeeds -/
  | create (ok : Bool)
  /-- aosl_hal_thread_detach: nothing (295-298) -/
  | detach (k : Nat)
  /-- 94-107: the thread's function returns; the thread is joinable, so the semaphore is posted, nothing is freed -/
  | finish (k : Nat)
  /-- 212-221: aosl_hal_thread_exit: os_task_destroy of the calling task does not return -/
  | exit (k : Nat)
deriving DecidableEq, Repr

/-- the new state and whether a creation succeeded -/
def step (s : St) : Act → St × Option Bool
  | .create ok =>
    match set s.slots s.used with
    | none => (s, some false)
    -- 183-187: aosl_thread_free clears the slot again
    | some l => if ok then ({ s with slots := l, used := s.used + 1 }, some true) else (s, some false)
  | .detach _ => (s, none)
  | .finish k => ({ s with ended := k :: s.ended }, none)
  | .exit k => ({ s with ended := k :: s.ended }, none)

/-- One event after the other, in the model of platform/src/tw82x/aosl_hal_thread.c:19-107, 135-223, 295-298; no code of its own. -/
def run (s : St) : List Act → St × List Bool
  | [] => (s, [])
  | a :: l => let p := step s a; let q := run p.1 l; (q.1, p.2.toList ++ q.2)

end Tw

/-! ## ac791n (platform/src/ac791n/aosl_hal_thread.c:8-109, 295-357, 411-431) -/
namespace Ac

/-- A context: `idx`: reg_idx; `refs`: ref_cnt. Belongs to the model of platform/src/ac791n/aosl_hal_thread.c:8-109, 295-357, 411-431. -/
structure Ctx where
  idx : Nat
  refs : Nat
  ended : Bool
deriving DecidableEq, Repr

/-- Data of the model of platform/src/ac791n/aosl_hal_thread.c:8-109, 295-357, 411-431. -/
structure St where
  /-- g_aosl_threads; the name of slot `i` is "ah_i" once it was used -/
  slots : List (Option Nat)
  ctx : List Ctx
deriving DecidableEq, Repr

/-- Belongs to the model of platform/src/ac791n/aosl_hal_thread.c:8-109, 295-357, 411-431. -/
def max : Nat := 16

/-- The state at the beginning, in the model of platform/src/ac791n/aosl_hal_thread.c:8-109, 295-357, 411-431. -/
def St.init : St := ⟨List.replicate max none, []⟩

/-- register_thread (65-79): the first free slot, or none: reg_idx stays 0 (calloc) -/
def firstFree : List (Option Nat) → Option Nat
  | [] => none
  | none :: _ => some 0
  | some _ :: l => (firstFree l).map (· + 1)

inductive Act where
  /-- 307-357; `ok`: thread_fork succeeds -/
  | create (ok : Bool)
  /-- aosl_hal_thread_detach: sets a flag (411-421) -/
  | detach (k : Nat)
  /-- 295-305: the thread's function returns, the thread's reference is dropped -/
  | finish (k : Nat)
deriving DecidableEq, Repr

def step (s : St) : Act → St
  | .create true =>
    match firstFree s.slots with
    | some i => ⟨s.slots.set i (some s.ctx.length), s.ctx ++ [⟨i, 2, false⟩]⟩
    | none => ⟨s.slots, s.ctx ++ [⟨0, 2, false⟩]⟩
  -- 347-353: registered, not started, unregistered, freed
  | .create false => s
  | .detach _ => s
  | .finish k =>
    match s.ctx[k]? with
    | some c => if c.ended then s else { s with ctx := s.ctx.set k { c with refs := c.refs - 1, ended := true } }
    | none => s

/-- One event after the other, in the model of platform/src/ac791n/aosl_hal_thread.c:8-109, 295-357, 411-431; no code of its own. -/
def run (s : St) : List Act → St
  | [] => s
  | a :: l => run (step s a) l

/-- 423-431 with 95-109: the context found under the name of the calling task, "ah_" ++ its reg_idx -/
def self (s : St) (k : Nat) : Option Nat :=
  match s.ctx[k]? with
  | some c => (s.slots[c.idx]?).join
  | none => none

end Ac

/-! ## ipro7 (platform/src/ipro7/aosl_hal_thread.c:25-63 thread_wrapper, 65-109 aosl_hal_thread_create, 209-240 aosl_hal_thread_detach) -/
namespace Ipro

/-- where the thread is: in its function; has set `completed`; has read `detached` (the value); has waited/cleaned up and ended. Belongs to the model of platform/src/ipro7/aosl_hal_thread.c:25-63. -/
inductive TPc where
  | run
  | completed
  | read (d : Bool)
  | ended
deriving DecidableEq, Repr

/-- where the creator is: the task is made; the tag is set; `detached` is set; `completed` was read (the value); detach has returned. Belongs to the model of platform/src/ipro7/aosl_hal_thread.c:25-63. -/
inductive CPc where
  | made
  | tagged
  | marked
  | read (c : Bool)
  | out
deriving DecidableEq, Repr

/-- Data of the model of platform/src/ipro7/aosl_hal_thread.c:25-63. -/
structure St where
  t : TPc
  c : CPc
  completed : Bool
  detached : Bool
  /-- how often the record (with its semaphore) was freed -/
  frees : Nat
  /-- the record or the semaphore was used after it was freed -/
  uaf : Bool
deriving DecidableEq, Repr

/-- The state at the beginning, in the model of platform/src/ipro7/aosl_hal_thread.c:25-63. -/
def St.init : St := ⟨.run, .made, false, false, 0, false⟩

/-- The calls and events of the model of platform/src/ipro7/aosl_hal_thread.c:25-63. -/
inductive Act where
  | thread
  | creator
deriving DecidableEq, Repr

/-- a use of the record. Belongs to the model of platform/src/ipro7/aosl_hal_thread.c:25-63. -/
def St.touch (s : St) : St := { s with uaf := s.uaf || decide (0 < s.frees) }

/-- What one event does, in the model of platform/src/ipro7/aosl_hal_thread.c:25-63. -/
def step (s : St) : Act → St
  | .thread =>
    match s.t with
    | .run => { s.touch with t := .completed, completed := true }
    | .completed => { s.touch with t := .read s.detached }
    -- the semaphore is given, then at most 5 seconds' wait
    | .read false => { s.touch with t := .ended }
    | .read true => { s with t := .ended, frees := s.frees + 1 }
    | .ended => s
  | .creator =>
    match s.c with
    | .made => { s.touch with c := .tagged }
    | .tagged => { s.touch with c := .marked, detached := true }
    | .marked => { s.touch with c := .read s.completed }
    | .read true => { s with c := .out, frees := s.frees + 1 }
    | .read false => { s with c := .out }
    | .out => s

/-- One event after the other, in the model of platform/src/ipro7/aosl_hal_thread.c:25-63; no code of its own. -/
def run (s : St) : List Act → St
  | [] => s
  | a :: l => run (step s a) l

end Ipro
end Verif.PortThread
