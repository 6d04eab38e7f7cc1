import Verif.Hal

/-! # Properties of the platform boundary: C125, C128 – C131 -/
namespace Verif.Hal

/-! ## C125: failures of the platform are translated faithfully -/

/-- what a failed OS call must look like to the user: three errnos keep their meaning, every other
    one is the general platform error -/
def Translated (os : Nat) (aosl : String) : Prop :=
  (os = 11 ∧ aosl = "EAGAIN") ∨ (os = 4 ∧ aosl = "EINTR") ∨ (os = 115 ∧ aosl = "EINPROGRESS") ∨
  (os ≠ 11 ∧ os ≠ 4 ∧ os ≠ 115 ∧ aosl = "EHAL")

/-- For every OS result: a success is passed through unchanged and leaves aosl_errno alone; a failure
    with errno e returns minus the code that translates e, and aosl_errno is that same code. -/
theorem C125_translation (r : Os) (errno : Int) :
    match r with
    | .ok v => dflt r errno = ((v : Int), errno)
    | .err e => e ≠ 0 → ∃ (n : String) (k : Nat), Translated e n ∧ code n = some k ∧ dflt r errno = (-(k : Int), (k : Int)) := by
  cases r with
  | ok v =>
    have : ¬ ((v : Int) < 0) := by omega
    simp [dflt, hal, this]
  | err e =>
    intro h0
    by_cases h1 : e = 11
    · subst h1
      exact ⟨"EAGAIN", 1011, .inl ⟨rfl, rfl⟩, by decide +kernel, by simp [dflt, hal, convert, setError]⟩
    by_cases h2 : e = 4
    · subst h2
      exact ⟨"EINTR", 1004, .inr (.inl ⟨rfl, rfl⟩), by decide +kernel, by simp [dflt, hal, convert, setError]⟩
    by_cases h3 : e = 115
    · subst h3
      exact ⟨"EINPROGRESS", 1115, .inr (.inr (.inl ⟨rfl, rfl⟩)), by decide +kernel, by simp [dflt, hal, convert, setError]⟩
    · refine ⟨"EHAL", 2000, .inr (.inr (.inr ⟨h1, h2, h3, rfl⟩)), by decide +kernel, ?_⟩
      simp [dflt, hal, convert, setError, h0, h1, h2, h3]

/-- a failure is never taken for a success, and always lies in the error window of the API (-4095..-1) -/
theorem C125_window (e : Nat) (errno : Int) (h : e ≠ 0) :
    -4095 ≤ (dflt (.err e) errno).1 ∧ (dflt (.err e) errno).1 < 0 := by
  obtain ⟨n, k, ht, hk, hd⟩ := C125_translation (.err e) errno h
  rw [hd]
  have : k = 1011 ∨ k = 1004 ∨ k = 1115 ∨ k = 2000 := by
    rcases ht with ⟨_, rfl⟩ | ⟨_, rfl⟩ | ⟨_, rfl⟩ | ⟨_, _, _, rfl⟩
    · have : code "EAGAIN" = some 1011 := by decide +kernel
      simp [this] at hk; omega
    · have : code "EINTR" = some 1004 := by decide +kernel
      simp [this] at hk; omega
    · have : code "EINPROGRESS" = some 1115 := by decide +kernel
      simp [this] at hk; omega
    · have : code "EHAL" = some 2000 := by decide +kernel
      simp [this] at hk; omega
  simp only
  omega

/-- a connect waits exactly when the OS says "in progress", succeeds at once exactly when the OS call
    succeeded, and fails otherwise -/
theorem C125_connect (r : Os) (hr : r ≠ .err 0) :
    (doConnect r = none ↔ r = .err 115) ∧ (doConnect r = some 0 ↔ ∃ v, r = .ok v) ∧
    (∀ e, doConnect r = some e → e ≠ 0 → e < 0 ∧ ∃ os, r = .err os) := by
  cases r with
  | ok v => simp [doConnect]
  | err e =>
    have h0 : e ≠ 0 := by intro h; subst h; exact hr rfl
    by_cases h1 : e = 11
    · subst h1; simp [doConnect, convert, setError]
    by_cases h2 : e = 4
    · subst h2; simp [doConnect, convert, setError]
    by_cases h3 : e = 115
    · subst h3; simp [doConnect, convert]
    · simp [doConnect, convert, setError, h0, h1, h2, h3]

/-- non-vacuity: ECONNREFUSED (111) and EAGAIN -/
example : dflt (.err 111) 0 = (-2000, 2000) ∧ dflt (.err 11) 7 = (-1011, 1011) ∧ dflt (.ok 5) 7 = (5, 7) := by decide

/-- the constants the other models of this development use are the values in the public header -/
theorem C125_constants :
    code "EINVAL" = some IoRead.eINVAL.toNat ∧ code "EAGAIN" = some IoWrite.eAGAIN.toNat ∧
    code "ENOMEM" = some IoWrite.eNOMEM.toNat ∧ code "EINVAL" = some IoWrite.eINVAL.toNat ∧
    code "EMSGSIZE" = some IoWrite.eMSGSIZE.toNat ∧ code "ETIMEDOUT" = some IoWrite.eTIMEDOUT.toNat ∧
    code "EEXIST" = some Lifecycle.eEXIST.toNat ∧ code "EINVAL" = some Lifecycle.eINVAL.toNat ∧
    code "EPERM" = some (-FdTab.ePERM).toNat ∧ code "ENOENT" = some (-FdTab.eNOENT).toNat ∧
    code "EBUSY" = some (-FdTab.eBUSY).toNat ∧ code "EEXIST" = some (-FdTab.eEXIST).toNat ∧
    code "ENONET" = some (-FdTab.eNONET).toNat ∧ FdTab.eOK = 0 ∧
    code "ENOSPC" = some Inet.ENOSPC ∧ code "EAFNOSUPPORT" = some Inet.EAFNOSUPPORT ∧
    code "EINVAL" = some (-Tls.eINVAL).toNat ∧ code "ENOMEM" = some (-Tls.eNOMEM).toNat ∧
    code "EOVERFLOW" = some (-Tls.eOVERFLOW).toNat := by decide +kernel

/-! ## C131: aosl_strerror -/

/-- the two codes the switch has no case for -/
def unnamed (n : String) : Bool := n == "EWOULDBLOCK" || n == "EHAL"

/-- FALSE: two public codes have no name; in particular the platform error (every OS failure but three)
    and the code the header calls EWOULDBLOCK, which is not EAGAIN. -/
theorem C131_unnamed : code "EHAL" = some 2000 ∧ strerror 2000 = "Unknown Error" ∧
    code "EWOULDBLOCK" = some 2011 ∧ strerror 2011 = "Unknown Error" ∧ code "EAGAIN" = some 1011 := by decide +kernel

/-- Every other public code has its own name, and a number that is no such code has none. -/
theorem C131_names_partial :
    (∀ n k, code n = some k → unnamed n = false → strerror k = n) ∧
    (∀ z : Int, strerror z ≠ "Unknown Error" → ∃ k, z = (k : Nat) ∧ code (strerror z) = some k ∧ unnamed (strerror z) = false) := by
  constructor
  · intro n k h hu
    have all : ∀ p ∈ offsets, unnamed p.1 = false → strerror ((base + p.2 : Nat) : Int) = p.1 := by decide +kernel
    simp only [code, Option.map_eq_some_iff] at h
    obtain ⟨p, hp, rfl⟩ := h
    have hm := List.mem_of_find?_eq_some hp
    have hn := List.find?_some hp
    simp only [beq_iff_eq] at hn
    rw [all p hm (by rw [hn]; exact hu)]
    exact hn
  · intro z hz
    have all : ∀ c ∈ strCases, c.1 = c.2 ∧ unnamed c.2 = false := by decide +kernel
    cases hf : strCases.find? fun c => decide ((code c.1).map Int.ofNat = some z) with
    | none => exact absurd (by unfold strerror; rw [hf]) hz
    | some c =>
      have hm := List.mem_of_find?_eq_some hf
      have hn := List.find?_some hf
      obtain ⟨h1, h2⟩ := all c hm
      simp only [decide_eq_true_eq, Option.map_eq_some_iff] at hn
      obtain ⟨k, hk, rfl⟩ := hn
      have hs : strerror (Int.ofNat k) = c.2 := by unfold strerror; rw [hf]
      exact ⟨k, rfl, by rw [hs, ← h1]; exact hk, by rw [hs]; exact h2⟩

/-- different codes have different names -/
theorem C131_distinct_partial (n m : String) (k : Nat) (hn : code n = some k) (hm : code m = some k)
    (hun : unnamed n = false) (hum : unnamed m = false) : n = m := by
  rw [← C131_names_partial.1 n k hn hun, C131_names_partial.1 m k hm hum]

example : strerror 1110 = "ETIMEDOUT" ∧ strerror 0 = "Unknown Error" := by decide +kernel

/-! ## C128: socket addresses cross the platform boundary unchanged -/

/-- the address a user or the kernel means -/
inductive Addr where
  | v4 (ip : BitVec 32) (port : BitVec 16)
  | v6 (ip : B16) (port : BitVec 16) (flow scope : BitVec 32)

/-- the user's reading of an aosl_sockaddr_t -/
def SA.means (a : SA) : Option Addr :=
  if a.fam = 2 then some (.v4 a.w a.port) else if a.fam = 10 then some (.v6 a.a6 a.port a.w a.scope) else none

/-- the kernel's reading of the address argument of bind/connect/sendto: the length must cover the
    address of the family given, otherwise EINVAL -/
def kernelReads (p : OsA × Int) : Option Addr :=
  if p.1.fam = 2 then (if p.2 = 16 ∨ p.2 = 28 then some (.v4 p.1.w p.1.port) else none)
  else if p.1.fam = 10 then (if p.2 = 28 then some (.v6 p.1.a6 p.1.port p.1.w p.1.scope) else none)
  else none

/-- what the kernel writes into the 28-byte buffer of accept/recvfrom/getsockname -/
def kernelWrites : Addr → OsA → OsA
  | .v4 ip port, o => { o with fam := 2, port := port, w := ip }
  | .v6 ip port flow scope, _ => ⟨10, port, flow, ip, scope⟩

/-- to the kernel: it gets the address the user gave, or nothing at all if that is no IP address -/
theorem C128_to_kernel (a : SA) : kernelReads (passed a) = a.means := by
  unfold kernelReads passed SA.means toOs addrLen domain OsA.zero
  by_cases h : a.fam = 2
  · simp [h]
  · by_cases h' : a.fam = 10 <;> simp [h, h']

/-- from the kernel: the user gets the address the kernel reported, whatever was there before -/
theorem C128_from_kernel (k : Addr) (old : SA) : (received (kernelWrites k) old).means = some k := by
  cases k <;> simp [received, kernelWrites, toAosl, SA.means, OsA.zero]

/-- a reported address can be used to answer: it denotes the same address to the kernel -/
theorem C128_reply (k : Addr) (old : SA) : kernelReads (passed (received (kernelWrites k) old)) = some k := by
  rw [C128_to_kernel, C128_from_kernel]

/-- the address family of a result of getaddrinfo is that of its address (guaranteed by POSIX) -/
def Ai.ok (ai : Ai) : Prop := ∀ o, ai.addr = some o → o.fam = ai.fam

/-- the meaning of a result, if it is an IP address -/
def Ai.means (ai : Ai) : Option Addr :=
  match ai.addr with
  | none => none
  | some o => if o.fam = 2 then some (.v4 o.w o.port) else if o.fam = 10 then some (.v6 o.a6 o.port o.w o.scope) else none

theorem resolveLoop_spec (n : Int) (l : List Ai) (hl : ∀ ai ∈ l, ai.ok) (c : Nat) (m : Nat → SA) (hc : 0 ≤ n → (c : Int) ≤ n) :
    let r := resolveLoop n l c m
    let want := (l.filterMap Ai.means).take ((n - c).toNat)
    r.1 = c + want.length ∧ (∀ i, i < want.length → (r.2 (c + i)).means = want[i]?) ∧ (∀ i, i < c ∨ r.1 ≤ i → r.2 i = m i) := by
  induction l generalizing c m with
  | nil => simp [resolveLoop]
  | cons ai r ih =>
    have hr : ∀ ai ∈ r, ai.ok := fun x hx => hl x (List.mem_cons_of_mem _ hx)
    have ha : ai.ok := hl ai (List.mem_cons_self ..)
    simp only [resolveLoop]
    by_cases hlt : (c : Int) < n
    · simp only [hlt, if_true]
      cases ho : ai.addr with
      | none =>
        have : ai.means = none := by simp [Ai.means, ho]
        simp only [List.filterMap_cons, this]
        exact ih hr c m hc
      | some o =>
        have hf := ha o ho
        by_cases hip : ai.fam = 2 ∨ ai.fam = 10
        · simp only [hip, if_true]
          obtain ⟨x, hx, hmx⟩ : ∃ x, ai.means = some x ∧ (toAosl o (m c)).means = some x := by
            rcases hip with h | h
            · exact ⟨.v4 o.w o.port, by simp [Ai.means, ho, hf, h], by simp [toAosl, SA.means, hf, h]⟩
            · exact ⟨.v6 o.a6 o.port o.w o.scope, by simp [Ai.means, ho, hf, h], by simp [toAosl, SA.means, hf, h]⟩
          have := ih hr (c + 1) (fun i => if i = c then toAosl o (m c) else m i) (by omega)
          simp only at this
          obtain ⟨h1, h2, h3⟩ := this
          simp only [List.filterMap_cons, hx]
          have hn : (n - (c : Int)).toNat = (n - ((c + 1 : Nat) : Int)).toNat + 1 := by omega
          rw [hn, List.take_succ_cons]
          refine ⟨by rw [h1, List.length_cons]; omega, ?_, ?_⟩
          · intro i hi
            cases i with
            | zero =>
              have h0 := h3 (c + 0) (.inl (by omega))
              simp only [Nat.add_zero, if_true] at h0
              simp only [Nat.add_zero, List.getElem?_cons_zero]
              rw [h0]
              exact hmx
            | succ j =>
              simp only [List.length_cons, List.getElem?_cons_succ] at hi ⊢
              rw [← h2 j (by omega)]
              have : c + (j + 1) = c + 1 + j := by omega
              rw [this]
          · intro i hi
            have : i ≠ c := by rw [h1] at hi; omega
            rw [h3 i (by omega)]
            simp [this]
        · simp only [hip, if_false]
          have : ai.means = none := by
            have h2 : o.fam ≠ 2 := by rw [hf]; exact fun h => hip (.inl h)
            have h3 : o.fam ≠ 10 := by rw [hf]; exact fun h => hip (.inr h)
            simp [Ai.means, ho, h2, h3]
          simp only [List.filterMap_cons, this]
          exact ih hr c m hc
    · have : (n - (c : Int)).toNat = 0 := by omega
      simp [hlt, this]

/-- The resolver stores the first addr_count IP addresses of the answer, in order, says how many, and
    touches no other entry of the caller's array. -/
theorem C128_resolve (res : Option (List Ai)) (hres : ∀ l, res = some l → ∀ ai ∈ l, ai.ok) (addrs : Nat → SA) (n : Int) :
    let answer := ((res.getD []).filterMap Ai.means).take n.toNat
    let r := resolve res addrs n
    r.1 = answer.length ∧ (∀ i, i < r.1 → (r.2 i).means = answer[i]?) ∧ (∀ i, r.1 ≤ i → r.2 i = addrs i) := by
  cases res with
  | none => simp [resolve]
  | some l =>
    have := resolveLoop_spec n l (hres l rfl) 0 addrs (by omega)
    simp only [Int.natCast_zero, Int.sub_zero, Nat.zero_add] at this
    obtain ⟨h1, h2, h3⟩ := this
    refine ⟨h1, ?_, fun i hi => h3 i (.inr hi)⟩
    intro i hi
    simp only [resolve, Option.getD_some] at hi ⊢
    exact h2 i (by rw [h1] at hi; exact hi)

/-- so it never writes past the array -/
theorem C128_resolve_bound (res : Option (List Ai)) (hres : ∀ l, res = some l → ∀ ai ∈ l, ai.ok) (addrs : Nat → SA) (n : Int)
    (i : Nat) (h : n ≤ i) : (resolve res addrs n).2 i = addrs i := by
  obtain ⟨h1, _, h3⟩ := C128_resolve res hres addrs n
  apply h3
  rw [h1, List.length_take]
  omega

/-- non-vacuity: a null entry, an unknown family, a v4 and two v6 results into an array of two -/
example : let z : B16 := fun _ => 0
    let old : SA := ⟨0, 0, 0, z, 0⟩
    let l : List Ai := [⟨2, none⟩, ⟨1, some ⟨1, 0, 0, z, 0⟩⟩, ⟨2, some ⟨2, 5, 9, z, 0⟩⟩, ⟨10, some ⟨10, 6, 0, z, 3⟩⟩, ⟨10, some ⟨10, 7, 0, z, 3⟩⟩]
    let r := resolve (some l) (fun _ => old) 2
    r.1 = 2 ∧ (r.2 0).w = 9 ∧ (r.2 1).fam = 10 ∧ (r.2 1).port = 6 ∧ (r.2 2).fam = 0 := by decide +kernel

/-! ## C129: aosl_get_sockaddr -/

/-- FALSE for IPv4: a socket bound to 127.0.0.1:80 is reported to have the address of the default
    interface. -/
theorem C129_wrong_address : ∃ (bound : Addr) (defIp : BitVec 32) (old : SA),
    (getSockaddr (some (kernelWrites bound OsA.zero)) (some defIp) old).1 = 0 ∧
    (getSockaddr (some (kernelWrites bound OsA.zero)) (some defIp) old).2.means ≠ some bound :=
  ⟨.v4 0x0100007f 0x5000, 0x0a01a8c0, ⟨0, 0, 0, fun _ => 0, 0⟩, by decide, by simp [getSockaddr, kernelWrites, toAosl, SA.means]⟩

/-- FALSE for IPv6: it always fails. -/
theorem C129_v6_fails (ip : B16) (port : BitVec 16) (flow scope : BitVec 32) (defIp : Option (BitVec 32)) (old : SA) :
    (getSockaddr (some (kernelWrites (.v6 ip port flow scope) OsA.zero)) defIp old).1 = -1 := by
  cases defIp <;> simp [getSockaddr, kernelWrites, toAosl]

/-- What does hold: when it succeeds the socket is IPv4 and the port is the socket's; the address is
    right exactly when the socket's address is that of the default interface. -/
theorem C129_partial (bound : Addr) (defIp : Option (BitVec 32)) (old : SA)
    (h : (getSockaddr (some (kernelWrites bound OsA.zero)) defIp old).1 = 0) :
    ∃ ip port d, bound = .v4 ip port ∧ defIp = some d ∧
      (getSockaddr (some (kernelWrites bound OsA.zero)) defIp old).2.means = some (.v4 d port) := by
  cases bound with
  | v6 ip port flow scope => rw [C129_v6_fails] at h; simp at h
  | v4 ip port =>
    cases defIp with
    | none => simp [getSockaddr] at h
    | some d => exact ⟨ip, port, d, rfl, rfl, by simp [getSockaddr, kernelWrites, toAosl, SA.means]⟩

/-! ## C130: aosl_bind_device -/

/-- FALSE: a name of more than 15 characters is cut, and if the cut name is a device the socket is bound
    to that one and success is reported. -/
theorem C130_other_device : ∃ (dev : List Char → Bool) (name : List Char),
    (∀ n, dev n = true → n.length ≤ 15) ∧ dev name = false ∧
    (bindDevice dev (some name)).1 = 0 ∧ (bindDevice dev (some name)).2 = some "vlan-uplink-100".toList := by
  refine ⟨fun n => n == "vlan-uplink-100".toList, "vlan-uplink-1000".toList, ?_, by decide +kernel, by decide +kernel, by decide +kernel⟩
  intro n hn
  have : n = "vlan-uplink-100".toList := by simpa using hn
  subst this
  decide +kernel

/-- Names of at most 15 characters: bound to exactly that device, or an error and bound to none. -/
theorem C130_partial (dev : List Char → Bool) (name : List Char) (hn : name.length ≤ 15) (h0 : name ≠ []) :
    (dev name = true → bindDevice dev (some name) = (0, some name)) ∧
    (dev name = false → bindDevice dev (some name) = (-2000, none)) := by
  have : ifrName name = name := List.take_of_length_le hn
  constructor <;> intro h <;> simp [bindDevice, h0, this, kernelBind, h, convert, setError]

/-- no name: refused -/
theorem C130_empty_partial (dev : List Char → Bool) : bindDevice dev none = (-1, none) ∧ bindDevice dev (some []) = (-1, none) := by
  simp [bindDevice]

example : "eth0".toList.length ≤ 15 ∧ "eth0".toList ≠ [] := by decide

end Verif.Hal
