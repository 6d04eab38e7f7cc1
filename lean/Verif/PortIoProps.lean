import Verif.PortIo
/-
  Claims C207 (only real connections are handed over), C208 (addresses to and from the system), C209 (aosl_get_sockaddr) on the ports.
-/
namespace Verif.PortIo
open Verif.PortSock (Port Why convert)

/-! ## C207 -/

/-- The ports whose accept answers AOSL_INVALID_FD when it fails. -/
def says : Port → Prop := fun p => p ≠ .ac791n ∧ p ≠ .asr1606 ∧ p ≠ .tw82x

instance (p : Port) : Decidable (says p) := by unfold says; infer_instance

/-- The connections the system gave in the calls k, k+1, … k+n-1. -/
def conns (os : Nat → Ans) (k : Nat) : Nat → List Int
  | 0 => []
  | n + 1 =>
    (match os k with
     | .conn fd => [(fd : Int)]
     | .fail _ => []) ++ conns os (k + 1) n

theorem accept_fail {p : Port} (hp : says p) (w : Why) : defaultAccept p (.fail w) = .error (-2000) := by
  obtain ⟨h1, h2, h3⟩ := hp
  cases p <;> simp_all [defaultAccept, halAccept]

theorem accept_conn (p : Port) (fd : Nat) : defaultAccept p (.conn fd) = .ok (fd : Int) := by
  have h : ¬ halAccept p (.conn fd) = -1 := by show ¬ (fd : Int) = -1; omega
  unfold defaultAccept
  simp only [h, if_false]
  rfl

/-- C207 (partial: not ac791n, asr1606, tw82x): whatever the system answers and whatever the application does, the descriptors handed to the application are the connections the system gave in its first calls, each once and in order, and no others. -/
theorem C207_real_partial (p : Port) (hp : says p) (os : Nat → Ans) (closes : List Int → Bool) (fuel k : Nat) (g : List Int) :
    ∃ n, (pass p os closes fuel k g).given = g ++ conns os k n ∧ ∀ i, i < n → ∃ fd, os (k + i) = .conn fd := by
  induction fuel generalizing k g with
  | zero => exact ⟨0, by simp [pass, Pass.given, conns], by intro i hi; omega⟩
  | succ f ih =>
    unfold pass
    cases ho : os k with
    | fail w =>
      rw [accept_fail hp]
      exact ⟨0, by simp [Pass.given, conns], by intro i hi; omega⟩
    | conn fd =>
      rw [accept_conn]
      by_cases hc : closes (g ++ [(fd : Int)]) = true
      · refine ⟨1, ?_, ?_⟩
        · simp [hc, Pass.given, conns, ho]
        · intro i hi
          have : i = 0 := by omega
          subst this
          exact ⟨fd, by simpa using ho⟩
      · obtain ⟨n, h1, h2⟩ := ih (k + 1) (g ++ [(fd : Int)])
        refine ⟨n + 1, ?_, ?_⟩
        · simp only [hc, Bool.false_eq_true, if_false]
          rw [h1]
          simp [conns, ho]
        · intro i hi
          cases i with
          | zero => exact ⟨fd, by simpa using ho⟩
          | succ j =>
            have := h2 j (by omega)
            rwa [show k + 1 + j = k + (j + 1) by omega] at this

/-- C207 (partial, the same ports): with `n` connections pending and an application that does not close the socket, the pass hands over those `n`, tells the code -2000 and ends. -/
theorem C207_ends_partial (p : Port) (hp : says p) (os : Nat → Ans) (n : Nat) (w : Why)
    (hc : ∀ i, i < n → ∃ fd, os i = .conn fd) (hn : os n = .fail w) (fuel : Nat) (hf : n < fuel) :
    pass p os (fun _ => false) fuel 0 [] = .told (conns os 0 n) (-2000) := by
  have gen : ∀ (n : Nat) (k : Nat) (g : List Int) (fuel : Nat), n < fuel → (∀ i, i < n → ∃ fd, os (k + i) = .conn fd) →
      os (k + n) = .fail w → pass p os (fun _ => false) fuel k g = .told (g ++ conns os k n) (-2000) := by
    intro n
    induction n with
    | zero =>
      intro k g fuel hf _ hn
      obtain ⟨f, rfl⟩ : ∃ f, fuel = f + 1 := ⟨fuel - 1, by omega⟩
      unfold pass
      rw [show os k = .fail w from by simpa using hn, accept_fail hp]
      simp [conns]
    | succ m ih =>
      intro k g fuel hf hc hn
      obtain ⟨f, rfl⟩ : ∃ f, fuel = f + 1 := ⟨fuel - 1, by omega⟩
      obtain ⟨fd, h0⟩ := hc 0 (by omega)
      unfold pass
      rw [show os k = .conn fd from by simpa using h0, accept_conn]
      simp only [Bool.false_eq_true, if_false]
      rw [ih (k + 1) (g ++ [(fd : Int)]) f (by omega)
        (fun i hi => by have := hc (i + 1) (by omega); rwa [show k + (i + 1) = k + 1 + i by omega] at this)
        (by rwa [show k + 1 + m = k + (m + 1) by omega])]
      simp [conns, show os k = .conn fd from by simpa using h0]
  have := gen n 0 [] fuel hf (fun i hi => by simpa using hc i hi) (by simpa using hn)
  simpa using this

example : pass .bk725x (fun n => if n < 2 then .conn (40 + n) else .fail .again) (fun _ => false) 9 0 [] = .told [40, 41] (-2000) := by decide +kernel
example : says .bk725x ∧ says .windows ∧ ¬ says .tw82x := by decide

/-- C207 (refuted on ac791n, asr1606, tw82x): when no connection is pending the application is handed a descriptor that is a negative error code; unless it closes the listening socket itself, the pass hands over such descriptors without end: after any number of rounds it is still going. -/
theorem C207_violated_invented (p : Port) (hp : ¬ says p) (os : Nat → Ans) (h : ∀ n, os n = .fail .again) (fuel : Nat) :
    pass p os (fun _ => false) fuel 0 [] = .going (List.replicate fuel (-2001)) := by
  have ha : defaultAccept p (.fail .again) = .ok (-2001) := by
    cases p <;> simp_all [says, defaultAccept, halAccept, convert]
  have gen : ∀ (fuel k : Nat) (g : List Int), pass p os (fun _ => false) fuel k g = .going (g ++ List.replicate fuel (-2001)) := by
    intro fuel
    induction fuel with
    | zero => intro k g; simp [pass]
    | succ f ih =>
      intro k g
      unfold pass
      rw [h k, ha]
      simp only [Bool.false_eq_true, if_false]
      rw [ih]
      simp [List.replicate_succ]
  simpa using gen fuel 0 []

/-- C207 (refuted, the same ports): no answer of the system is ever a failure to the loop, so it never leaves it unless the application closes the socket. -/
theorem C207_violated_never_told (p : Port) (hp : ¬ says p) (os : Nat → Ans) (hn : ∀ n, os n ≠ .fail .none) (fuel : Nat) :
    ∃ l, pass p os (fun _ => false) fuel 0 [] = .going l ∧ l.length = fuel := by
  have ha : ∀ a : Ans, a ≠ .fail .none → ∃ fd, defaultAccept p a = .ok fd := by
    intro a hne
    cases a with
    | conn fd => exact ⟨fd, accept_conn p fd⟩
    | fail w => cases p <;> cases w <;> simp_all [says, defaultAccept, halAccept, convert]
  have gen : ∀ (fuel k : Nat) (g : List Int), ∃ l, pass p os (fun _ => false) fuel k g = .going l ∧ l.length = g.length + fuel := by
    intro fuel
    induction fuel with
    | zero => intro k g; exact ⟨g, by simp [pass], by simp⟩
    | succ f ih =>
      intro k g
      obtain ⟨fd, hfd⟩ := ha (os k) (hn k)
      unfold pass
      rw [hfd]
      simp only [Bool.false_eq_true, if_false]
      obtain ⟨l, h1, h2⟩ := ih (k + 1) (g ++ [fd])
      exact ⟨l, h1, by rw [h2]; simp; omega⟩
  obtain ⟨l, h1, h2⟩ := gen fuel 0 []
  exact ⟨l, h1, by simpa using h2⟩

example : pass .asr1606 (fun n => if n < 1 then .conn 7 else .fail .again) (fun _ => false) 4 0 [] = .going [7, -2001, -2001, -2001] := by decide +kernel

/-! ## C208 -/

/-- The system's address says the same as the user's. -/
def Same (a : SA) (o : OsA) : Prop :=
  (a.fam = 2 ∧ o.fam = sysInet ∧ o.port = a.port ∧ o.word = a.word) ∨
  (a.fam = 10 ∧ o.fam = sysInet6 ∧ o.port = a.port ∧ o.word = a.word ∧ o.addr = a.addr ∧ o.scope = a.scope)

/-- The size of the system's structure for a family of the user. -/
def sizeFor (f : Nat) : Int := if f = 10 then 28 else 16

/-- C208 (partial: IPv4 on every port, IPv6 where the build has it, except asr1606 and xr872): connect and sendto hand the system the same address, with the size of its family. -/
theorem C208_to_system_partial (p : Port) (ipv6 : Bool) (a : SA)
    (h : a.fam = 2 ∨ (a.fam = 10 ∧ knowsV6 p ipv6 = true ∧ p ≠ .asr1606 ∧ p ≠ .xr872)) :
    ∃ o, handed p ipv6 a = some (o, sizeFor a.fam) ∧ Same a o := by
  rcases h with h | ⟨h, hk, h1, h2⟩
  · refine ⟨{ osZero with fam := sysInet, port := a.port, word := a.word }, ?_, Or.inl ⟨h, rfl, rfl, rfl⟩⟩
    cases p <;> simp [handed, toOs, lenOf, addrLen, domain, sizeFor, afInet, afInet6, sysInet, h]
  · refine ⟨{ fam := sysInet6, port := a.port, word := a.word, addr := a.addr, scope := a.scope }, ?_, Or.inr ⟨h, rfl, rfl, rfl, rfl, rfl⟩⟩
    cases p <;> simp_all [handed, toOs, lenOf, addrLen, domain, sizeFor, afInet, afInet6, sysInet, sysInet6, knowsV6]

example : knowsV6 .bk725x true = true ∧ knowsV6 .windows false = true ∧ knowsV6 .ac791n true = false := by decide

/-- C208 (partial, as above with xr872): accept, recvfrom and getsockname give the caller the address the system reports, whatever the caller's structure held. -/
theorem C208_from_system_partial (p : Port) (ipv6 : Bool) (o : OsA) (old : SA)
    (h : o.fam = sysInet ∨ (o.fam = sysInet6 ∧ knowsV6 p ipv6 = true ∧ p ≠ .asr1606)) :
    Same (toAosl p ipv6 o old) o := by
  rcases h with h | ⟨h, hk, h1⟩
  · refine Or.inl ?_
    simp [toAosl, h, afInet]
  · refine Or.inr ?_
    simp [toAosl, h, hk, h1, sysInet, sysInet6, afInet6]

/-- C208 (partial, the same): an answer to the sender's address reaches the sender: what is given back to sendto is what was received. -/
theorem C208_answer_partial (p : Port) (ipv6 : Bool) (o : OsA) (old : SA)
    (h : o.fam = sysInet ∨ (o.fam = sysInet6 ∧ knowsV6 p ipv6 = true ∧ p ≠ .asr1606 ∧ p ≠ .xr872)) :
    ∃ o' l, handed p ipv6 (toAosl p ipv6 o old) = some (o', l) ∧ o'.fam = o.fam ∧ o'.port = o.port ∧ o'.word = o.word ∧
      (o.fam = sysInet6 → o'.addr = o.addr ∧ o'.scope = o.scope) := by
  have hs := C208_from_system_partial p ipv6 o old (by rcases h with h | h; exact Or.inl h; exact Or.inr ⟨h.1, h.2.1, h.2.2.1⟩)
  have hf : (toAosl p ipv6 o old).fam = 2 ∨ ((toAosl p ipv6 o old).fam = 10 ∧ knowsV6 p ipv6 = true ∧ p ≠ .asr1606 ∧ p ≠ .xr872) := by
    rcases hs with hs | hs
    · exact Or.inl hs.1
    · refine Or.inr ⟨hs.1, ?_⟩
      rcases h with h | h
      · exfalso
        have := hs.2.1
        rw [h] at this
        exact absurd this (by decide)
      · exact h.2
  obtain ⟨o', h1, h2⟩ := C208_to_system_partial p ipv6 _ hf
  refine ⟨o', _, h1, ?_⟩
  rcases hs with hs | hs <;> rcases h2 with h2 | h2
  · exact ⟨by rw [h2.2.1, hs.2.1], by rw [h2.2.2.1, hs.2.2.1], by rw [h2.2.2.2, hs.2.2.2], fun hx => by rw [hs.2.1] at hx; exact absurd hx (by decide)⟩
  · have := hs.1.symm.trans h2.1; omega
  · have := hs.1.symm.trans h2.1; omega
  · exact ⟨by rw [h2.2.1, hs.2.1], by rw [h2.2.2.1, hs.2.2.1], by rw [h2.2.2.2.1, hs.2.2.2.1], fun _ => ⟨by rw [h2.2.2.2.2.1, hs.2.2.2.2.1], by rw [h2.2.2.2.2.2, hs.2.2.2.2.2]⟩⟩

/-- C208 (refuted on asr1606): the scope of an IPv6 address is lost both ways: the system is always given scope 0, and the caller keeps whatever scope it had. -/
theorem C208_violated_scope (a : SA) (o : OsA) (old : SA) (ha : a.fam = 10) (ho : o.fam = sysInet6) :
    (∃ x, handed .asr1606 true a = some (x, 28) ∧ x.fam = sysInet6 ∧ x.addr = a.addr ∧ x.scope = 0) ∧
    (toAosl .asr1606 true o old).fam = 10 ∧ (toAosl .asr1606 true o old).addr = o.addr ∧ (toAosl .asr1606 true o old).scope = old.scope := by
  refine ⟨⟨{ fam := sysInet6, port := a.port, word := a.word, addr := a.addr, scope := 0 }, ?_, rfl, rfl, rfl⟩, ?_, ?_, ?_⟩
  · simp [handed, toOs, lenOf, addrLen, knowsV6, afInet, afInet6, sysInet, sysInet6, ha]
  all_goals simp [toAosl, knowsV6, sysInet, sysInet6, afInet6, ho]

/-- C208 (refuted on xr872 with IPv6): an IPv6 destination is handed over with the size of an IPv4 address. -/
theorem C208_violated_length (a : SA) (ha : a.fam = 10) : ∃ o, handed .xr872 true a = some (o, 16) ∧ Same a o := by
  refine ⟨{ fam := sysInet6, port := a.port, word := a.word, addr := a.addr, scope := a.scope }, ?_, Or.inr ⟨ha, rfl, rfl, rfl, rfl, rfl⟩⟩
  simp [handed, toOs, lenOf, addrLen, domain, knowsV6, afInet, afInet6, sysInet, sysInet6, ha]

/-- C208 (refuted where IPv6 is not converted): an IPv6 destination is not refused: the system is handed an all-zero address of no family, the same for every destination; only ipro7 refuses. -/
theorem C208_violated_no_v6 (p : Port) (ipv6 : Bool) (hk : knowsV6 p ipv6 = false) (a : SA) (ha : a.fam = 10) :
    if p = .ipro7 then handed p ipv6 a = none else ∃ l, handed p ipv6 a = some (⟨0, 0, 0, List.replicate 16 0, 0⟩, l) := by
  cases p <;> cases ipv6 <;> simp_all [handed, toOs, knowsV6, afInet, afInet6, osZero]

/-- C208 (refuted where IPv6 is not converted): the address of an IPv6 peer leaves the caller's structure as it was, so the caller goes on with an older address. -/
theorem C208_violated_stale (p : Port) (ipv6 : Bool) (hk : knowsV6 p ipv6 = false) (o : OsA) (ho : o.fam = sysInet6) (old : SA) :
    toAosl p ipv6 o old = old := by
  have hp : p ≠ .spreadtrum := by intro h; subst h; simp [knowsV6] at hk
  simp [toAosl, hk, ho, sysInet, sysInet6, hp]

/-- C208: for a family no port knows, the structure of the caller is zeroed on spreadtrum and left alone on the others; the destination goes to the system as zeros, except on ipro7, which refuses. -/
theorem C208_other_families (p : Port) (ipv6 : Bool) (o : OsA) (old a : SA) (ho : o.fam ≠ sysInet ∧ o.fam ≠ sysInet6) (ha : a.fam ≠ 2 ∧ a.fam ≠ 10) :
    (toAosl p ipv6 o old = if p = .spreadtrum then ⟨0, 0, 0, List.replicate 16 0, 0⟩ else old) ∧
    (if p = .ipro7 then handed p ipv6 a = none else ∃ l, handed p ipv6 a = some (⟨0, 0, 0, List.replicate 16 0, 0⟩, l) ∧ (l = -1 ∨ p = .ac791n ∨ p = .spreadtrum)) := by
  constructor
  · simp [toAosl, ho.1, ho.2]
  · cases p <;> simp [handed, toOs, lenOf, addrLen, domain, afInet, afInet6, sysInet, sysInet6, osZero, ha.1, ha.2]

/-- C208: the rest of an IPv4 address: the system is handed zeros; the caller's structure is zeroed there on windows and spreadtrum and keeps what it held on the others. -/
theorem C208_v4_rest (p : Port) (ipv6 : Bool) (o : OsA) (old a : SA) (ho : o.fam = sysInet) (ha : a.fam = 2) :
    (∃ x l, handed p ipv6 a = some (x, l) ∧ x.addr = List.replicate 16 0 ∧ x.scope = 0) ∧
    ((toAosl p ipv6 o old).addr, (toAosl p ipv6 o old).scope) =
      (if p = .windows ∨ p = .spreadtrum then (List.replicate 16 0, 0) else (old.addr, old.scope)) := by
  constructor
  · refine ⟨_, _, by simp [handed, toOs, ha, afInet]; exact ⟨rfl, rfl⟩, ?_, ?_⟩ <;> simp [osZero]
  · cases p <;> simp [toAosl, ho]

example : (toAosl .esp32 false ⟨23, 80, 1, List.replicate 16 7, 3⟩ ⟨2, 9, 9, List.replicate 16 0, 9⟩) = ⟨10, 80, 1, List.replicate 16 7, 3⟩ := by decide +kernel
example : (toAosl .asr1606 true ⟨23, 80, 1, List.replicate 16 7, 3⟩ ⟨2, 9, 9, List.replicate 16 0, 9⟩) = ⟨10, 80, 1, List.replicate 16 7, 9⟩ := by decide +kernel
example : (toAosl .bk725x false ⟨23, 80, 1, List.replicate 16 7, 3⟩ ⟨2, 9, 9, List.replicate 16 0, 9⟩) = ⟨2, 9, 9, List.replicate 16 0, 9⟩ := by decide +kernel

/-! ## C209 -/

/-- C209: what aosl_get_sockaddr answers has the port of the socket, which is an IPv4 socket, and an address of the ones of the machine the port of the library picks. -/
theorem C209_port (p : Port) (ipv6 : Bool) (sn : Option OsA) (n : Net) (f : Nat) (prt : BitVec 16) (ip : BitVec 32)
    (h : getSockaddr p ipv6 sn n = some (f, prt, ip)) :
    f = 2 ∧ localIp p n = some ip ∧ ∃ o, sn = some o ∧ o.fam = sysInet ∧ o.port = prt := by
  cases sn with
  | none => simp [getSockaddr] at h
  | some o =>
    cases hl : localIp p n with
    | none => simp [getSockaddr, hl] at h
    | some i =>
      simp only [getSockaddr, hl] at h
      by_cases hf : afInet ≠ (toAosl p ipv6 o ⟨0, 0, 0, List.replicate 16 0, 0⟩).fam
      · rw [if_pos hf] at h; exact absurd h (by simp)
      · rw [if_neg hf] at h
        simp only [Option.some.injEq, Prod.mk.injEq] at h
        obtain ⟨h1, h2, h3⟩ := h
        have hfam : o.fam = sysInet := by
          by_cases ho : o.fam = sysInet
          · exact ho
          · exfalso
            apply hf
            simp only [toAosl, ho, if_false]
            by_cases h6 : o.fam = sysInet6 ∧ knowsV6 p ipv6 = true
            · rw [if_pos h6]; simp [afInet, afInet6]
            · rw [if_neg h6]; split <;> simp [afInet]
        refine ⟨h1.symm, by rw [h3], o, rfl, hfam, ?_⟩
        rw [← h2]
        simp [toAosl, hfam]

/-- C209: on an IPv4 socket it answers whenever the port of the library finds an address, and with that address. -/
theorem C209_answers (p : Port) (ipv6 : Bool) (o : OsA) (n : Net) (ip : BitVec 32) (ho : o.fam = sysInet) (hl : localIp p n = some ip) :
    getSockaddr p ipv6 (some o) n = some (2, o.port, ip) := by
  simp [getSockaddr, hl, toAosl, ho, afInet]

/-- C209 (partial: darwin, harmony, windows, rtl8713, xr872, ac791n): the address is one of a real interface: not the loopback and, but for darwin, one that is up; on rtl8713 and xr872 of the default interface; on ac791n of the Wi-Fi interface, and not 0. -/
theorem C209_whose_partial (p : Port) (n : Net) (ip : BitVec 32) (h : localIp p n = some ip) :
    match p with
    | .darwin => ∃ i ∈ n.ifs, i.loop = false ∧ ip ∈ i.v4 ∧ (i.name.startsWith "en" ∨ i.name.startsWith "pdp_ip")
    | .harmony => ∃ i ∈ n.ifs, i.loop = false ∧ i.up = true ∧ i.running = true ∧ ip ∈ i.v4
    | .windows => ∃ i ∈ n.ifs, i.loop = false ∧ i.up = true ∧ ip ∈ i.v4
    | .rtl8713 | .xr872 => ∃ i, n.dflt = some i ∧ i.up = true ∧ ip = lwipAddr i
    | .ac791n => ∃ i, n.wifi = some i ∧ ip = lwipAddr i ∧ ip ≠ 0
    | .esp32 => True
    | _ => False := by
  cases p <;> simp only [localIp] at h ⊢
  case ac791n =>
    cases hw : n.wifi with
    | none => simp [hw] at h
    | some i =>
      simp only [hw] at h
      by_cases h0 : lwipAddr i = 0
      · simp [h0] at h
      · rw [if_neg h0] at h
        have := Option.some.inj h
        exact ⟨i, rfl, this.symm, by rw [← this]; exact h0⟩
  case rtl8713 =>
    cases hw : n.dflt with
    | none => simp [hw] at h
    | some i =>
      cases hu : i.up with
      | false => simp [hw, hu] at h
      | true => simp [hw, hu] at h; exact ⟨i, rfl, hu, h.symm⟩
  case xr872 =>
    cases hw : n.dflt with
    | none => simp [hw] at h
    | some i =>
      cases hu : i.up with
      | false => simp [hw, hu] at h
      | true => simp [hw, hu] at h; exact ⟨i, rfl, hu, h.symm⟩
  case darwin =>
    have hm := List.mem_of_mem_head? (Option.mem_def.mpr h)
    obtain ⟨i, hi, hv⟩ := List.mem_flatMap.mp hm
    simp only [List.mem_filter, Bool.and_eq_true, Bool.not_eq_true', Bool.or_eq_true] at hi
    exact ⟨i, hi.1, hi.2.1, hv, hi.2.2⟩
  case harmony =>
    have hm := List.mem_of_mem_head? (Option.mem_def.mpr h)
    obtain ⟨i, hi, hv⟩ := List.mem_flatMap.mp hm
    simp only [List.mem_filter, Bool.and_eq_true, Bool.not_eq_true'] at hi
    exact ⟨i, hi.1, hi.2.1.1, hi.2.1.2, hi.2.2, hv⟩
  case windows =>
    have hm := List.mem_of_mem_head? (Option.mem_def.mpr h)
    obtain ⟨i, hi, hv⟩ := List.mem_flatMap.mp hm
    simp only [List.mem_filter, Bool.and_eq_true, Bool.not_eq_true'] at hi
    exact ⟨i, hi.1, hi.2.1, hi.2.2, hv⟩
  all_goals simp at h

/-- C209: on darwin, harmony and windows an answer is found whenever some interface qualifies and has an IPv4 address. -/
theorem C209_found (n : Net) (i : NetIf) (hi : i ∈ n.ifs) (hl : i.loop = false) (hu : i.up = true) (hr : i.running = true) (hv : i.v4 ≠ []) :
    (∃ ip, localIp .windows n = some ip) ∧ (∃ ip, localIp .harmony n = some ip) ∧
    ((i.name.startsWith "en" = true ∨ i.name.startsWith "pdp_ip" = true) → ∃ ip, localIp .darwin n = some ip) := by
  have key : ∀ q : NetIf → Bool, q i = true → ∃ ip, ((n.ifs.filter q).flatMap NetIf.v4).head? = some ip := by
    intro q hq
    cases hh : ((n.ifs.filter q).flatMap NetIf.v4).head? with
    | some ip => exact ⟨ip, rfl⟩
    | none =>
      exfalso
      have he := List.head?_eq_none_iff.mp hh
      obtain ⟨x, hx⟩ := List.exists_mem_of_ne_nil _ hv
      have : x ∈ (n.ifs.filter q).flatMap NetIf.v4 := List.mem_flatMap.mpr ⟨i, List.mem_filter.mpr ⟨hi, hq⟩, hx⟩
      rw [he] at this
      exact absurd this (by simp)
  refine ⟨key _ (by simp [hl, hu]), key _ (by simp [hl, hu, hr]), fun h => key _ ?_⟩
  simp only [hl, Bool.not_false, Bool.true_and, Bool.or_eq_true]
  exact h

/-- C209 (refuted on five ports): it fails on every socket and every machine. -/
theorem C209_violated_never (p : Port) (hp : p = .asr1606 ∨ p = .bk725x ∨ p = .ipro7 ∨ p = .tw82x ∨ p = .spreadtrum)
    (ipv6 : Bool) (sn : Option OsA) (n : Net) : getSockaddr p ipv6 sn n = none := by
  have hl : localIp p n = none := by rcases hp with h | h | h | h | h <;> subst h <;> rfl
  cases sn <;> simp [getSockaddr, hl]

/-- C209 (refuted on darwin, harmony, windows, esp32, ac791n): the answer does not depend on which interface is the default one, so for every machine on which two interfaces with different addresses can be the default it is wrong for one of them. -/
theorem C209_violated_default (p : Port) (hp : p = .darwin ∨ p = .harmony ∨ p = .windows ∨ p = .esp32 ∨ p = .ac791n) (n : Net) (i j : NetIf)
    (hne : lwipAddr i ≠ lwipAddr j) :
    localIp p { n with dflt := some i } ≠ some (lwipAddr i) ∨ localIp p { n with dflt := some j } ≠ some (lwipAddr j) := by
  have h : localIp p { n with dflt := some i } = localIp p { n with dflt := some j } := by
    rcases hp with h | h | h | h | h <;> subst h <;> rfl
  by_cases hi : localIp p { n with dflt := some i } = some (lwipAddr i)
  · right
    rw [← h, hi]
    intro hx
    exact hne (Option.some.inj hx)
  · exact Or.inl hi

theorem lowest_spec (l : List NetIf) (m : Int) (b : Option NetIf) :
    (lowest l m b = b ∧ ∀ j ∈ l, m ≤ j.prio) ∨ (∃ i ∈ l, lowest l m b = some i ∧ i.prio < m ∧ ∀ j ∈ l, i.prio ≤ j.prio) := by
  induction l generalizing m b with
  | nil => left; simp [lowest]
  | cons a r ih =>
    unfold lowest
    by_cases h : a.prio < m
    · rw [if_pos h]
      right
      rcases ih a.prio (some a) with ⟨h1, h2⟩ | ⟨i, hi, h1, h2, h3⟩
      · refine ⟨a, by simp, h1, h, ?_⟩
        intro j hj
        rcases List.mem_cons.mp hj with rfl | hj
        · omega
        · exact h2 j hj
      · refine ⟨i, by simp [hi], h1, by omega, ?_⟩
        intro j hj
        rcases List.mem_cons.mp hj with rfl | hj
        · omega
        · exact h3 j hj
    · rw [if_neg h]
      rcases ih m b with ⟨h1, h2⟩ | ⟨i, hi, h1, h2, h3⟩
      · left
        refine ⟨h1, ?_⟩
        intro j hj
        rcases List.mem_cons.mp hj with rfl | hj
        · omega
        · exact h2 j hj
      · right
        refine ⟨i, by simp [hi], h1, h2, ?_⟩
        intro j hj
        rcases List.mem_cons.mp hj with rfl | hj
        · omega
        · exact h3 j hj

/-- C209 (refuted on esp32): the address is of an interface with the lowest route priority, while traffic leaves by the highest; with any two priorities it is never one of the highest. -/
theorem C209_violated_esp32 (n : Net) (i j : NetIf) (hi : i ∈ n.ifs) (_hj : j ∈ n.ifs) (hlt : i.prio < j.prio) (hm : j.prio ≤ intMax) :
    ∃ k ∈ n.ifs, localIp .esp32 n = some (lwipAddr k) ∧ (∀ x ∈ n.ifs, k.prio ≤ x.prio) ∧ k.prio < j.prio := by
  rcases lowest_spec n.ifs intMax none with ⟨h1, h2⟩ | ⟨k, hk, h1, _, h3⟩
  · have := h2 i hi; omega
  · exact ⟨k, hk, by simp [localIp, h1], h3, by have := h3 i hi; omega⟩

/-- C209 on esp32: with no route priority below INT_MAX the address is the Wi-Fi interface's, or the first one's if there is none. -/
theorem C209_esp32_fallback (n : Net) (h : ∀ i ∈ n.ifs, 2147483647 ≤ i.prio) :
    localIp .esp32 n = (match n.wifi with
      | some i => some (lwipAddr i)
      | none => (n.ifs.head?).map lwipAddr) ∧
    ∀ m : Net, ∀ i : NetIf, m.ifs = [i] → i.prio < 2147483647 → localIp .esp32 m = some (lwipAddr i) := by
  constructor
  · rcases lowest_spec n.ifs intMax none with ⟨h1, _⟩ | ⟨k, hk, _, h2, _⟩
    · simp only [localIp, h1]; cases n.wifi <;> rfl
    · have := h k hk; unfold intMax at h2; omega
  · intro m i hm hi
    simp [localIp, hm, lowest, intMax, hi]

/-- C209 (refuted on rtl8713, xr872, esp32): before the interface has an address, it succeeds with the address 0.0.0.0. -/
theorem C209_violated_zero (o : OsA) (ho : o.fam = sysInet) (i : NetIf) (hv : i.v4 = []) (hu : i.up = true) (hp : i.prio < intMax) :
    getSockaddr .rtl8713 true (some o) { ifs := [i], dflt := some i } = some (2, o.port, 0) ∧
    getSockaddr .xr872 true (some o) { ifs := [i], dflt := some i } = some (2, o.port, 0) ∧
    getSockaddr .esp32 true (some o) { ifs := [i], dflt := some i } = some (2, o.port, 0) := by
  refine ⟨C209_answers _ _ _ _ _ ho ?_, C209_answers _ _ _ _ _ ho ?_, C209_answers _ _ _ _ _ ho ?_⟩
  · simp [localIp, hu, lwipAddr, hv]
  · simp [localIp, hu, lwipAddr, hv]
  · simp [localIp, lowest, hp, lwipAddr, hv]

example : getSockaddr .windows true (some ⟨2, 80, 0, List.replicate 16 0, 0⟩) { ifs := [{ name := "lo", v4 := [1], loop := true }, { name := "a", v4 := [], up := true }, { name := "b", v4 := [5, 6] }] } = some (2, 80, 5) := by decide +kernel
example : localIp .esp32 { ifs := [{ name := "sta", v4 := [1], prio := 100 }, { name := "ap", v4 := [2], prio := 10 }] } = some 2 := by decide +kernel
example : localIp .rtl8713 { ifs := [], dflt := some { name := "r0", v4 := [9] } } = some 9 := by decide +kernel

end Verif.PortIo
