/-
  Model of the condition variable of the ac791n port, built from semaphores (platform/src/ac791n/aosl_hal_thread.c:193-292). The sections under the inner
  lock are one action each. A post makes the count of the semaphore one bigger; any thread that has registered may take it (as the scheduler decides, a
  thread that has not yet reached the semaphore included).
-/
namespace Verif.CondSim

/-- `waiters`, `sem`: the fields of the same name (lines 194-198). The threads inside aosl_hal_cond_timedwait: `pend`: between the registration (260-262) and the
    return of os_sem_pend (274); `got`: os_sem_pend returned 0; `late`: os_sem_pend timed out. -/
structure St where
  waiters : Nat
  sem : Nat
  pend : List Nat
  got : List Nat
  late : List Nat
deriving DecidableEq, Repr

/-- The state at the beginning, in the model of platform/src/ac791n/aosl_hal_thread.c:193-292. -/
def St.init : St := ⟨0, 0, [], [], []⟩

inductive Act where
  /-- 259-266: register, unlock the user's mutex -/
  | wait (t : Nat)
  /-- 274: os_sem_pend returns 0 -/
  | take (t : Nat)
  /-- 274: os_sem_pend returns an error: the time is over -/
  | expire (t : Nat)
  /-- 277-286, then the user's mutex is taken again -/
  | leave (t : Nat)
  /-- 222-233 -/
  | signal
  /-- 235-247 -/
  | broadcast
deriving DecidableEq, Repr

/-- what a thread is told by the call: `some (t, ok)`: the call of thread `t` returns, `ok`: with 0. Belongs to the model of platform/src/ac791n/aosl_hal_thread.c:193-292. -/
abbrev Out := Option (Nat × Bool)

/-- `none`: not possible now -/
def step (s : St) : Act → Option (St × Out)
  | .wait t =>
    if t ∈ s.pend ∨ t ∈ s.got ∨ t ∈ s.late then none
    else some ({ s with waiters := s.waiters + 1, pend := t :: s.pend }, none)
  | .take t =>
    if t ∈ s.pend ∧ 0 < s.sem then some ({ s with sem := s.sem - 1, pend := s.pend.erase t, got := t :: s.got }, none) else none
  | .expire t =>
    if t ∈ s.pend then some ({ s with pend := s.pend.erase t, late := t :: s.late }, none) else none
  | .leave t =>
    if t ∈ s.got then some ({ s with waiters := s.waiters - 1, got := s.got.erase t }, some (t, true))
    else if t ∈ s.late then
      -- 280-285: os_sem_accept
      if 0 < s.sem then some ({ s with waiters := s.waiters - 1, sem := s.sem - 1, late := s.late.erase t }, some (t, true))
      else some ({ s with waiters := s.waiters - 1, late := s.late.erase t }, some (t, false))
    else none
  | .signal => some (if 0 < s.waiters then { s with sem := s.sem + 1 } else s, none)
  | .broadcast => some ({ s with sem := s.sem + s.waiters }, none)

/-- a run and what the calls returned, in order. Belongs to the model of platform/src/ac791n/aosl_hal_thread.c:193-292. -/
def run (s : St) : List Act → Option (St × List (Nat × Bool))
  | [] => some (s, [])
  | a :: l =>
    match step s a with
    | none => none
    | some (s', o) =>
      match run s' l with
      | none => none
      | some (s'', r) => some (s'', o.toList ++ r)

/-- the wait of a thread has not returned. Belongs to the model of platform/src/ac791n/aosl_hal_thread.c:193-292. -/
def St.inside (s : St) (t : Nat) : Prop := t ∈ s.pend ∨ t ∈ s.got ∨ t ∈ s.late

/-- 268-272: the ticks given to os_sem_pend for `ms`; 0 means: for ever -/
def ticks (ms : Int) : Int := if ms > 0 then (if ms.tdiv 10 = 0 then 1 else ms.tdiv 10) else 0

end Verif.CondSim
