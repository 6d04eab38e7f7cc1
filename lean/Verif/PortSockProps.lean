import Verif.PortSock
/-
  C179-C181: what applications rely on from the sockets of the ports.
-/
namespace Verif.PortSock

/-! ## C179: a resolved host name -/

/-- The entry is the address found. -/
def Names (r : Res) (e : Ent) : Prop :=
  match r.fam with
  | .v4 => e.fam = 2 ∧ e.word = r.bytes
  | .v6 => e.fam = 10 ∧ e.addr = r.bytes
  | .other => False

/-- IPv4 and IPv6 addresses are found with the number of bytes they have. -/
def WellFormed (rs : List Res) : Prop := ∀ r ∈ rs, (r.fam = .v4 → r.bytes.length = 4) ∧ (r.fam = .v6 → r.bytes.length = 16)

/-- The array holds the first of the addresses in `want`, as many as there is room for, in order, the count says how many, and the rest of the array is as it was. -/
structure Answers (want : List Res) (arr arr' : List Ent) (n : Nat) : Prop where
  count : n = min want.length arr.length
  length : arr'.length = arr.length
  each : ∀ i, i < n → ∃ r e, want[i]? = some r ∧ arr'[i]? = some e ∧ Names r e
  rest : ∀ i, n ≤ i → arr'[i]? = arr[i]?

/-- The families a build can use. -/
def known (ipv6 : Bool) (r : Res) : Bool :=
  match r.fam with
  | .v4 => true
  | .v6 => ipv6
  | .other => false

theorem fill_answers_from (p : NamePort) (keep : Res → Bool) (hp : ∀ r e, keep r = true → ∃ e', put p r e = some (some e') ∧ Names r e')
    (hs : ∀ r e, keep r = false → put p r e = some none) (rs : List Res) :
    ∀ (n : Nat) (a : List Ent), n ≤ a.length →
      ∃ a', fill p rs n a = some (a', n + min (rs.filter keep).length (a.length - n)) ∧ a'.length = a.length ∧
        (∀ i, i < n → a'[i]? = a[i]?) ∧
        (∀ i, i < min (rs.filter keep).length (a.length - n) → ∃ r e, (rs.filter keep)[i]? = some r ∧ a'[n + i]? = some e ∧ Names r e) ∧
        (∀ i, n + min (rs.filter keep).length (a.length - n) ≤ i → a'[i]? = a[i]?) := by
  induction rs with
  | nil => intro n a hn; exact ⟨a, by simp [fill], rfl, fun _ _ => rfl, by simp, fun _ _ => rfl⟩
  | cons r rs ih =>
    intro n a hn
    by_cases hlt : n < a.length
    · have hget : a[n]? = some a[n] := List.getElem?_eq_getElem hlt
      cases hk : keep r with
      | false =>
        obtain ⟨a', h1, h2, h3, h4, h5⟩ := ih n a hn
        refine ⟨a', ?_, h2, h3, ?_, ?_⟩
        · simp only [fill, hget, hs r _ hk, List.filter_cons, hk]; exact h1
        · simpa [List.filter_cons, hk] using h4
        · simpa [List.filter_cons, hk] using h5
      | true =>
        obtain ⟨e', he, hne⟩ := hp r a[n] hk
        have hn' : n + 1 ≤ (a.set n e').length := by simp; omega
        obtain ⟨a', h1, h2, h3, h4, h5⟩ := ih (n + 1) (a.set n e') hn'
        simp only [List.length_set] at h1 h2 h4 h5
        have hmin : n + min ((r :: rs).filter keep).length (a.length - n) = n + 1 + min (rs.filter keep).length (a.length - (n + 1)) := by
          simp only [List.filter_cons, hk, if_true, List.length_cons]; omega
        refine ⟨a', ?_, h2, ?_, ?_, ?_⟩
        · simp only [fill, hget, he]; rw [h1, hmin]
        · intro i hi
          rw [h3 i (by omega), List.getElem?_set_ne (by omega)]
        · intro i hi
          cases i with
          | zero =>
            refine ⟨r, e', by simp [List.filter_cons, hk], ?_, hne⟩
            rw [Nat.add_zero, h3 n (by omega)]; simp [hlt]
          | succ i =>
            obtain ⟨r', e, h6, h7, h8⟩ := h4 i (by simp only [List.filter_cons, hk, if_true, List.length_cons] at hi; omega)
            refine ⟨r', e, by simpa [List.filter_cons, hk] using h6, ?_, h8⟩
            rw [← h7]; congr 1; omega
        · intro i hi
          rw [hmin] at hi
          rw [h5 i hi, List.getElem?_set_ne (by omega)]
    · have hge : a.length ≤ n := by omega
      have hz : a.length - n = 0 := by omega
      refine ⟨a, ?_, rfl, fun _ _ => rfl, ?_, fun _ _ => rfl⟩
      · simp [fill, hge, hz]
      · intro i hi; simp [hz] at hi

/-- A port whose loop stores exactly the addresses of the families it keeps answers with them. -/
theorem fill_answers (p : NamePort) (keep : Res → Bool) (hp : ∀ r e, keep r = true → ∃ e', put p r e = some (some e') ∧ Names r e')
    (hs : ∀ r e, keep r = false → put p r e = some none) (rs : List Res) (arr : List Ent) :
    ∃ arr' n, fill p rs 0 arr = some (arr', n) ∧ Answers (rs.filter keep) arr arr' n := by
  obtain ⟨a', h1, h2, _, h4, h5⟩ := fill_answers_from p keep hp hs rs 0 arr (Nat.zero_le _)
  refine ⟨a', _, h1, ?_, h2, ?_, ?_⟩
  · simp
  · intro i hi; simpa using h4 i (by simpa using hi)
  · intro i hi; exact h5 i hi

/-- esp32, harmony, windows: every IPv4 and IPv6 address found, in order, as many as there is room for. -/
theorem addrinfo_resolve (rs : List Res) (arr : List Ent) :
    ∃ arr' n, resolve .addrinfo rs arr = some (arr', n) ∧ Answers (rs.filter (known true)) arr arr' n := by
  refine fill_answers .addrinfo (known true) ?_ ?_ rs arr
  · intro r e h; cases hf : r.fam <;> simp_all [known, put, Names, setV4, setV6, afInet, afInet6]
  · intro r e h; cases hf : r.fam <;> simp_all [known, put]

/-- spreadtrum: the same. -/
theorem spreadtrum_resolve (rs : List Res) (arr : List Ent) :
    ∃ arr' n, resolve .spreadtrum rs arr = some (arr', n) ∧ Answers (rs.filter (known true)) arr arr' n := by
  refine fill_answers .spreadtrum (known true) ?_ ?_ rs arr
  · intro r e h; cases hf : r.fam <;> simp_all [known, put, Names, setV4, setV6, afInet, afInet6]
  · intro r e h; cases hf : r.fam <;> simp_all [known, put]

/-- asr1606: the same, of the families of the build. -/
theorem asr1606_resolve (ipv6 : Bool) (rs : List Res) (arr : List Ent) :
    ∃ arr' n, resolve (.asr1606 ipv6) rs arr = some (arr', n) ∧ Answers (rs.filter (known ipv6)) arr arr' n := by
  refine fill_answers (.asr1606 ipv6) (known ipv6) ?_ ?_ rs arr
  · intro r e h; cases hf : r.fam <;> simp_all [known, put, Names, setV4, afInet, afInet6]
  · intro r e h; cases hf : r.fam <;> simp_all [known, put]

/-- bk725x, ipro7, tw82x without IPv6: the IPv4 addresses. -/
theorem addrinfoTmp_resolve_v4build (rs : List Res) (arr : List Ent) :
    ∃ arr' n, resolve (.addrinfoTmp false) rs arr = some (arr', n) ∧ Answers (rs.filter (known false)) arr arr' n := by
  refine fill_answers (.addrinfoTmp false) (known false) ?_ ?_ rs arr
  · intro r e h; cases hf : r.fam <;> simp_all [known, put, Names, setV4, afInet, tmpSize, skSize]
  · intro r e h; cases hf : r.fam <;> simp_all [known, put, tmpSize, skSize]

theorem fill_all (p q : NamePort) (rs : List Res) (h : ∀ r ∈ rs, ∀ e, put p r e = put q r e) : ∀ n a, fill p rs n a = fill q rs n a := by
  induction rs with
  | nil => intro n a; rfl
  | cons r rs ih =>
    intro n a
    have ih := ih (fun r' hr' => h r' (List.mem_cons_of_mem _ hr'))
    simp only [fill]
    cases a[n]? with
    | none => rfl
    | some e =>
      simp only [h r (List.mem_cons_self ..) e]
      rcases put q r e with _ | _ | e' <;> simp [ih]

/-- bk725x, ipro7, tw82x with IPv6: right as long as no IPv6 address is found. -/
theorem addrinfoTmp_resolve_v4only (rs : List Res) (h : ∀ r ∈ rs, r.fam ≠ .v6) (arr : List Ent) :
    ∃ arr' n, resolve (.addrinfoTmp true) rs arr = some (arr', n) ∧ Answers (rs.filter (known true)) arr arr' n := by
  have h1 : fill (.addrinfoTmp true) rs 0 arr = fill .addrinfo rs 0 arr := by
    refine fill_all _ _ rs ?_ 0 arr
    intro r hr e
    have := h r hr
    cases hf : r.fam <;> simp_all [put, tmpSize, skSize]
  simp only [resolve, h1]
  exact addrinfo_resolve rs arr

theorem fill_overruns (rs1 : List Res) (r : Res) (rs2 : List Res) (h1 : ∀ x ∈ rs1, x.fam ≠ .v6) (hr : r.fam = .v6) :
    ∀ (n : Nat) (a : List Ent), n + (rs1.filter (known true)).length < a.length → fill (.addrinfoTmp true) (rs1 ++ r :: rs2) n a = none := by
  induction rs1 with
  | nil =>
    intro n a hn
    simp at hn
    simp [fill, hn, put, hr, tmpSize, skSize]
  | cons x xs ih =>
    intro n a hn
    have ih := ih (fun y hy => h1 y (List.mem_cons_of_mem _ hy))
    have hx := h1 x (List.mem_cons_self ..)
    have hlt : n < a.length := by omega
    simp only [List.cons_append, fill, List.getElem?_eq_getElem hlt]
    cases hf : x.fam with
    | v6 => exact absurd hf hx
    | v4 =>
      have hk : known true x = true := by simp [known, hf]
      simp only [put, hf, tmpSize, skSize]
      refine ih _ _ ?_
      simp only [List.filter_cons, hk, if_true, List.length_cons] at hn
      simp; omega
    | other =>
      have hk : known true x = false := by simp [known, hf]
      simp only [put, hf]
      refine ih _ _ ?_
      simpa [List.filter_cons, hk] using hn

/-- bk725x, ipro7, tw82x with IPv6: the first IPv6 address that there is room for is copied over the end of a 16 byte variable. -/
theorem addrinfoTmp_overruns (rs1 : List Res) (r : Res) (rs2 : List Res) (h1 : ∀ x ∈ rs1, x.fam ≠ .v6) (hr : r.fam = .v6) (arr : List Ent)
    (hroom : (rs1.filter (known true)).length < arr.length) : resolve (.addrinfoTmp true) (rs1 ++ r :: rs2) arr = none :=
  fill_overruns rs1 r rs2 h1 hr 0 arr (by omega)

/-- rtl8713: right when the build has IPv6 or the answer is IPv4; the system reports no other family. -/
theorem rtl8713_resolve (ipv6 : Bool) (rs : List Res) (h : ∀ r ∈ rs, known ipv6 r = true) (arr : List Ent) :
    ∃ arr' n, resolve (.rtl8713 ipv6) rs arr = some (arr', n) ∧ Answers rs arr arr' n := by
  have h1 : fill (.rtl8713 ipv6) rs 0 arr = fill .addrinfo rs 0 arr := by
    refine fill_all _ _ rs ?_ 0 arr
    intro r hr e
    have := h r hr
    cases hf : r.fam <;> simp_all [put, known]
  have h2 : rs.filter (known true) = rs := by
    rw [List.filter_eq_self]; intro r hr
    have := h r hr
    cases hf : r.fam <;> simp_all [known]
  have := addrinfo_resolve rs arr
  rw [h2] at this
  simpa only [resolve, h1] using this

/-- xr872: right when the answer is IPv4. -/
theorem xr872_resolve (rs : List Res) (h : ∀ r ∈ rs, r.fam = .v4) (hw : WellFormed rs) (arr : List Ent) :
    ∃ arr' n, resolve .xr872 rs arr = some (arr', n) ∧ Answers rs arr arr' n := by
  have h1 : fill .xr872 rs 0 arr = fill .addrinfo rs 0 arr := by
    refine fill_all _ _ rs ?_ 0 arr
    intro r hr e
    have hv := h r hr
    have hl := (hw r hr).1 hv
    have ht : r.bytes.take 4 = r.bytes := List.take_of_length_le (by omega)
    simp [put, hv, setV4, ht]
  have h2 : rs.filter (known true) = rs := by
    rw [List.filter_eq_self]; intro r hr; simp [known, h r hr]
  have := addrinfo_resolve rs arr
  rw [h2] at this
  simpa only [resolve, h1] using this

/-- ac791n: right when the answer is IPv4 with 4 byte addresses; otherwise nothing is found. -/
theorem ac791n_resolve (rs : List Res) (h : ∀ r ∈ rs, r.fam = .v4) (hw : WellFormed rs) (arr : List Ent) :
    ∃ arr' n, resolve (.ac791n 4) rs arr = some (arr', n) ∧ Answers rs arr arr' n := by
  have hall : rs.all (fun r => decide (r.fam = .v4)) = true := by simpa using h
  have hbase : ∀ (l : List Res), (∀ r ∈ l, r.fam = .v4 ∧ r.bytes.length = 4) → ∀ n (a : List Ent), n ≤ a.length →
      ∃ a', fill (.ac791n 4) l n a = some (a', n + min l.length (a.length - n)) ∧ a'.length = a.length ∧ (∀ i, i < n → a'[i]? = a[i]?) ∧
        (∀ i, i < min l.length (a.length - n) → ∃ r e, l[i]? = some r ∧ a'[n + i]? = some e ∧ Names r e) ∧
        (∀ i, n + min l.length (a.length - n) ≤ i → a'[i]? = a[i]?) := by
    intro l
    induction l with
    | nil => intro _ n a hn; exact ⟨a, by simp [fill], rfl, fun _ _ => rfl, by simp, fun _ _ => rfl⟩
    | cons r rs ih =>
      intro hl n a hn
      have ih := ih (fun x hx => hl x (List.mem_cons_of_mem _ hx))
      obtain ⟨hv, hb⟩ := hl r (List.mem_cons_self ..)
      by_cases hlt : n < a.length
      · have hget : a[n]? = some a[n] := List.getElem?_eq_getElem hlt
        obtain ⟨e', he, hne⟩ : ∃ e', put (.ac791n 4) r a[n] = some (some e') ∧ Names r e' := by
          refine ⟨_, by simp only [put]; rfl, ?_⟩
          have ht : r.bytes.take 4 = r.bytes := List.take_of_length_le (by omega)
          simp only [Names, hv, ht, afInet]
          refine ⟨trivial, ?_⟩
          rw [List.take_append_of_le_length (by omega)]; exact List.take_of_length_le (by omega)
        obtain ⟨a', h1, h2, h3, h4, h5⟩ := ih (n + 1) (a.set n e') (by simp; omega)
        simp only [List.length_set] at h1 h2 h4 h5
        have hmin : n + min (r :: rs).length (a.length - n) = n + 1 + min rs.length (a.length - (n + 1)) := by
          simp only [List.length_cons]; omega
        refine ⟨a', ?_, h2, ?_, ?_, ?_⟩
        · simp only [fill, hget, he]; rw [h1, hmin]
        · intro i hi; rw [h3 i (by omega), List.getElem?_set_ne (by omega)]
        · intro i hi
          cases i with
          | zero =>
            refine ⟨r, e', rfl, ?_, hne⟩
            rw [Nat.add_zero, h3 n (by omega)]; simp [hlt]
          | succ i =>
            obtain ⟨r', e, h6, h7, h8⟩ := h4 i (by simp only [List.length_cons] at hi; omega)
            refine ⟨r', e, by simpa using h6, ?_, h8⟩
            rw [← h7]; congr 1; omega
        · intro i hi
          rw [hmin] at hi
          rw [h5 i hi, List.getElem?_set_ne (by omega)]
      · have hge : a.length ≤ n := by omega
        have hz : a.length - n = 0 := by omega
        refine ⟨a, by simp [fill, hge, hz], rfl, fun _ _ => rfl, ?_, fun _ _ => rfl⟩
        intro i hi; simp [hz] at hi
  obtain ⟨a', h1, h2, _, h4, h5⟩ := hbase rs (fun r hr => ⟨h r hr, (hw r hr).1 (h r hr)⟩) 0 arr (Nat.zero_le _)
  refine ⟨a', _, by simp only [resolve, hall, if_true]; exact h1, ?_, h2, ?_, ?_⟩
  · simp
  · intro i hi; simpa using h4 i (by simpa using hi)
  · intro i hi; exact h5 i hi

/-- The property in full, for a port. -/
def ResolvesRight (p : NamePort) : Prop :=
  ∀ rs arr, WellFormed rs → ∃ arr' n, resolve p rs arr = some (arr', n) ∧ Answers (rs.filter (known true)) arr arr' n

/-- Where it holds. -/
theorem resolves_right_partial : ResolvesRight .addrinfo ∧ ResolvesRight .spreadtrum ∧ ResolvesRight (.asr1606 true) :=
  ⟨fun rs arr _ => addrinfo_resolve rs arr, fun rs arr _ => spreadtrum_resolve rs arr, fun rs arr _ => asr1606_resolve true rs arr⟩

/-- bk725x, ipro7, tw82x: not with IPv6 results. -/
theorem addrinfoTmp_not_right : ¬ ResolvesRight (.addrinfoTmp true) := by
  intro h
  obtain ⟨a, n, h1, _⟩ := h [⟨.v6, List.replicate 16 1⟩] [⟨0, 0, [], [], []⟩] (by intro r hr; simp at hr; subst hr; simp)
  have := addrinfoTmp_overruns [] ⟨.v6, List.replicate 16 1⟩ [] (by simp) rfl [⟨0, 0, [], [], []⟩] (by simp)
  simp only [List.nil_append] at this
  rw [this] at h1; cases h1

/-- xr872: an IPv6 answer would become an IPv4 address made of its first bytes. -/
theorem xr872_not_right : ¬ ResolvesRight .xr872 := by
  intro h
  obtain ⟨a, n, h1, h2⟩ := h [⟨.v6, List.replicate 16 1⟩] [⟨0, 0, [], [], []⟩] (by intro r hr; simp at hr; subst hr; simp)
  simp [resolve, fill, put, setV4, afInet] at h1
  obtain ⟨rfl, rfl⟩ := h1
  obtain ⟨r, e, h3, h4, h5⟩ := h2.each 0 (by omega)
  have h6 : r = ⟨.v6, List.replicate 16 1⟩ := by
    rw [show List.filter (known true) [(⟨.v6, List.replicate 16 1⟩ : Res)] = [⟨.v6, List.replicate 16 1⟩] from rfl] at h3
    simpa using h3.symm
  have h7 : e.fam = 2 := by simp at h4; subst h4; rfl
  subst h6
  have h8 : e.fam = 10 := h5.1
  omega

/-- rtl8713 without IPv6: an IPv6 answer is counted but nothing is stored. -/
theorem rtl8713_counts_unset : resolve (.rtl8713 false) [⟨.v6, List.replicate 16 1⟩] [⟨7, 7, [], [], []⟩] = some ([⟨7, 7, [], [], []⟩], 1) := by
  decide

/-- ac791n: the port of the entry is left as it was. -/
theorem ac791n_keeps_port (r : Res) (hr : r.fam = .v4) (e : Ent) : ∃ e', resolve (.ac791n 4) [r] [e] = some ([e'], 1) ∧ e'.port = e.port := by
  let m := r.bytes.take 4 ++ (e.word ++ e.addr ++ e.scope).drop 4
  exact ⟨{ e with fam := afInet, word := m.take 4, addr := (m.drop 4).take 16, scope := (m.drop 20).take 4 }, by simp [resolve, hr, fill, put, m], rfl⟩

/-- The entry filled in for a result has port 0 except on ac791n (above), and except where rtl8713 fills nothing in; an IPv6 entry has flow and scope 0 except on asr1606, where they are left as they were. -/
theorem filled_rest (p : NamePort) (hp : ∀ n, p ≠ .ac791n n) (r : Res) (e e' : Ent) (h : put p r e = some (some e')) (hk : known true r = true) (hr : p = .rtl8713 false → r.fam = .v4) :
    e'.port = 0 ∧ (e'.fam = afInet6 → e'.word = [0, 0, 0, 0] ∧ e'.scope = [0, 0, 0, 0] ∨ ∃ b, p = .asr1606 b ∧ e'.word = e.word ∧ e'.scope = e.scope) := by
  cases p with
  | ac791n n => exact absurd rfl (hp n)
  | addrinfo => cases hf : r.fam <;> simp_all [put, known, setV4, setV6] <;> subst h <;> simp [afInet, afInet6]
  | spreadtrum => cases hf : r.fam <;> simp_all [put, known, setV4, setV6] <;> subst h <;> simp [afInet, afInet6]
  | xr872 => simp [put, setV4] at h; subst h; simp [afInet, afInet6]
  | addrinfoTmp b => cases b <;> cases hf : r.fam <;> simp_all [put, known, setV4, setV6, tmpSize, skSize] <;> subst h <;> simp [afInet, afInet6]
  | asr1606 b => cases b <;> cases hf : r.fam <;> simp_all [put, known, setV4, setV6] <;> subst h <;> simp [afInet, afInet6]
  | rtl8713 b => cases b <;> cases hf : r.fam <;> simp_all [put, known, setV4, setV6] <;> subst h <;> simp [afInet, afInet6]

example : put .addrinfo ⟨.v6, List.replicate 16 1⟩ ⟨7, 7, [1], [], [2]⟩ = some (some ⟨10, 0, [0, 0, 0, 0], List.replicate 16 1, [0, 0, 0, 0]⟩) := by decide

/-- ac791n: an answer that is not IPv4 throughout gives no address and leaves the array as it was. -/
theorem ac791n_gives_up (hlen : Nat) (rs : List Res) (arr : List Ent) (h : ∃ r ∈ rs, r.fam ≠ .v4) : resolve (.ac791n hlen) rs arr = some (arr, 0) := by
  have : ¬ rs.all (fun r => decide (r.fam = .v4)) = true := by simpa using h
  simp [resolve, this]

example : resolve (.ac791n 4) [⟨.v4, [1, 2, 3, 4]⟩, ⟨.v6, List.replicate 16 1⟩] [⟨7, 7, [], [], []⟩] = some ([⟨7, 7, [], [], []⟩], 0) :=
  ac791n_gives_up 4 _ _ ⟨⟨.v6, List.replicate 16 1⟩, by decide, by decide⟩

example : WellFormed [⟨.v4, [8, 8, 8, 8]⟩, ⟨.v6, List.replicate 16 1⟩] := by
  intro r hr; simp at hr; rcases hr with rfl | rfl <;> simp

/-- Three addresses, room for two. -/
example : resolve .addrinfo [⟨.v4, [8, 8, 8, 8]⟩, ⟨.other, []⟩, ⟨.v6, List.replicate 16 1⟩, ⟨.v4, [1, 1, 1, 1]⟩] [⟨0, 9, [0], [0], [0]⟩, ⟨0, 9, [0], [0], [0]⟩] =
    some ([⟨2, 0, [8, 8, 8, 8], [0], [0]⟩, ⟨10, 0, [0, 0, 0, 0], List.replicate 16 1, [0, 0, 0, 0]⟩], 2) := by decide

example : resolve (.addrinfoTmp true) [⟨.v4, [8, 8, 8, 8]⟩, ⟨.v6, List.replicate 16 1⟩] [⟨0, 9, [0], [0], [0]⟩, ⟨0, 9, [0], [0], [0]⟩] = none := by decide

/-! ## C180: what a socket call reports as done has been done -/

/-- A socket call that returns 0 has had its effect. -/
structure Honest (p : Port) : Prop where
  family : ∀ f, sockFam p f = f
  bind : ∀ ok s a, (bindTo p ok s a).1 = 0 → (bindTo p ok s a).2 = { s with bound := some a }
  device : ∀ ok s name, (bindDevice p ok s name).1 = 0 → (bindDevice p ok s name).2 = { s with dev := some name }
  dscp : ∀ ok s af d, (setDscp p ok s af d).1 = 0 → 0 ≤ d ∧ d ≤ 63 ∧ (setDscp p ok s af d).2 = { s with tos := 4 * d.toNat }

/-- It holds on darwin, esp32 and harmony. -/
theorem honest_ports_partial (p : Port) (hp : p = .darwin ∨ p = .esp32 ∨ p = .harmony) : Honest p := by
  refine ⟨?_, ?_, ?_, ?_⟩
  · intro f; rcases hp with rfl | rfl | rfl <;> rfl
  · intro ok s a h
    cases ok
    · simp [bindTo, failed] at h
    · rcases hp with rfl | rfl | rfl <;> rfl
  · intro ok s name h
    cases ok <;> rcases hp with rfl | rfl | rfl <;> simp_all [bindDevice, failed]
  · intro ok s af d h
    unfold setDscp at h ⊢
    split
    · simp_all
    · split
      · simp_all
      · rename_i hd
        have hd1 : 0 ≤ d ∧ d ≤ 63 := by omega
        refine ⟨hd1.1, hd1.2, ?_⟩
        cases ok <;> rcases hp with rfl | rfl | rfl <;> simp_all <;> grind

/-- A refused call changes nothing, on every port. -/
theorem refused_changes_nothing (p : Port) (ok : Bool) (s : Sk) (a : Adr) (name : List Nat) (af : Nat) (d : Int) :
    ((bindTo p ok s a).1 ≠ 0 → (bindTo p ok s a).2 = s) ∧ ((bindDevice p ok s name).1 ≠ 0 → (bindDevice p ok s name).2 = s) ∧
      ((setDscp p ok s af d).1 ≠ 0 → (setDscp p ok s af d).2 = s) := by
  refine ⟨?_, ?_, ?_⟩
  · cases ok <;> simp [bindTo]
  · cases p <;> cases ok <;> simp [bindDevice]
  · unfold setDscp; split
    · simp
    · split
      · simp
      · cases p <;> cases ok <;> simp <;> split <;> simp_all

/-- A DSCP outside 0..63 and an unknown family are refused on every port. -/
theorem dscp_refused (p : Port) (ok : Bool) (s : Sk) (af : Nat) (d : Int) (h : (af ≠ 2 ∧ af ≠ 10) ∨ d < 0 ∨ 63 < d) : setDscp p ok s af d = (-1, s) := by
  unfold setDscp
  by_cases h1 : af ≠ afInet ∧ af ≠ afInet6
  · rw [if_pos h1]
  · have h2 : ¬ (af ≠ 2 ∧ af ≠ 10) := h1
    rw [if_neg h1, if_pos (by omega)]

/-- ac791n, spreadtrum, windows, xr872: aosl_bind_device returns 0 and binds to no device, whatever the name. -/
theorem bind_device_ignored (p : Port) (hp : p = .ac791n ∨ p = .spreadtrum ∨ p = .windows ∨ p = .xr872) (ok : Bool) (s : Sk) (name : List Nat) :
    bindDevice p ok s name = (0, s) := by
  rcases hp with rfl | rfl | rfl | rfl <;> rfl

/-- Eight ports report a DSCP as set that they do not set. -/
theorem dscp_ignored (p : Port) (hp : p ∉ [Port.darwin, .harmony, .windows, .esp32]) (ok : Bool) (s : Sk) (d : Int) (hd : 0 ≤ d ∧ d ≤ 63) :
    setDscp p ok s 2 d = (0, s) := by
  unfold setDscp; simp only [afInet, afInet6]
  rw [if_neg (by omega), if_neg (by omega)]
  cases p <;> simp_all

/-- xr872: a socket asked for IPv6 is an IPv4 socket. -/
theorem xr872_family : sockFam .xr872 .v6 = .v4 := rfl

/-- ipro7: a socket bound to the loop-back address is bound to every address: what was to be local is open to the network. -/
theorem ipro7_loopback_open (s : Sk) (ip port : Nat) (h : 127 * 2 ^ 24 ≤ ip ∧ ip < 128 * 2 ^ 24) :
    bindTo .ipro7 true s ⟨.v4, ip, port⟩ = (0, { s with bound := some ⟨.v4, 0, port⟩ }) := by
  have : ip / 2 ^ 24 = 127 := by omega
  simp only [bindTo, bindArg, this]; simp

/-- ac791n: the address of an IPv6 bind is not handed on. -/
theorem ac791n_bind_v6 (s : Sk) (ip port : Nat) : bindTo .ac791n true s ⟨.v6, ip, port⟩ = (0, { s with bound := some ⟨.other, 0, 0⟩ }) := rfl

/-- The ports where it does not hold: all the others. -/
theorem not_honest (p : Port) (hp : p ∉ [Port.darwin, .esp32, .harmony]) : ¬ Honest p := by
  intro h
  by_cases hw : p = .windows
  · subst hw
    have := h.device true { fam := .v4 } [1] rfl
    exact absurd this (by decide)
  · have h1 := h.dscp true { fam := .v4 } 2 1 (by rw [dscp_ignored p (by simp_all) true _ 1 (by omega)])
    rw [dscp_ignored p (by simp_all) true _ 1 (by omega)] at h1
    exact absurd h1.2.2 (by decide)

/-- Outside the four silent ports, a device is bound or refused. -/
theorem device_bound_or_refused (p : Port) (hp : p ∉ [Port.ac791n, .spreadtrum, .windows, .xr872]) (ok : Bool) (s : Sk) (name : List Nat) :
    (bindDevice p ok s name).1 = 0 ↔ (bindDevice p ok s name).2.dev = some name ∧ p ≠ .harmony ∧ ok = true := by
  cases p <;> cases ok <;> simp_all [bindDevice, failed]

example : Honest .darwin ∧ (setDscp .darwin true { fam := .v4 } 2 46).2.tos = 184 ∧ (setDscp .esp32 true { fam := .v6 } 10 46).1 = -1 :=
  ⟨honest_ports_partial .darwin (Or.inl rfl), by decide, by decide⟩

example : (bindTo .ipro7 true { fam := .v4 } ⟨.v4, 0x7f000001, 80⟩).2.bound = some ⟨.v4, 0, 80⟩ := by decide

/-! ## C181: a connect under way is waited for, a failed one is not -/

/-- The outcome of a non-blocking connect is taken as what the system said. -/
structure ConnectsRight (p : Port) : Prop where
  done : mpqConnect p none = .connected
  pending : mpqConnect p (some (underWay p)) = .waits
  failed : ∀ w, w ≠ underWay p → w ≠ .none → (p = .windows → w ≠ .inProgress) → mpqConnect p (some w) = .fails

/-- On every port but spreadtrum. -/
theorem connects_right_partial (p : Port) (hp : p ≠ .spreadtrum) : ConnectsRight p := by
  refine ⟨rfl, ?_, ?_⟩
  · cases p <;> first | (exact absurd rfl hp) | rfl
  · intro w h1 h2 h3
    cases p <;> cases w <;> first | (exact absurd rfl hp) | (exact absurd rfl h1) | (exact absurd rfl h2) | (exact absurd rfl (h3 rfl)) | rfl

/-- What `aosl_connect` hands back: 0 exactly when the system connected (or gave no reason), -2003 exactly when a connect is under way, on every port but spreadtrum. -/
theorem connect_result (p : Port) (w : Option Why) (hw : p = .windows → w ≠ some .inProgress) :
    (connect p w = 0 ↔ w = none ∨ w = some .none) ∧ (p ≠ .spreadtrum → (connect p w = -2003 ↔ w = some (underWay p))) := by
  cases w with
  | none => cases p <;> simp [connect, underWay]
  | some w => cases p <;> cases w <;> simp_all [connect, convert, underWay]

example : connect .esp32 none = 0 ∧ connect .windows (some .again) = -2003 := by decide

/-- spreadtrum: a connect the system has begun is reported as failed. -/
theorem spreadtrum_connect_fails : mpqConnect .spreadtrum (some .inProgress) = .fails := rfl

theorem spreadtrum_not_right : ¬ ConnectsRight .spreadtrum := fun h => by have := h.pending; cases this

/-- A call that failed is never reported as a success or an empty read, on every port, if the system gives a reason. -/
theorem failure_is_negative (p : Port) (w : Why) : convert p w < 0 ↔ w ≠ .none := by
  cases p <;> cases w <;> decide

/-- "Try again" is told apart from every other failure, on every port. -/
theorem again_is_told_apart (p : Port) (w : Why) : convert p w = -2001 ↔ w = .again := by
  cases p <;> cases w <;> decide

/-- The code of each failure, and the code `aosl_bind` and `aosl_bind_device` give a refusal. -/
theorem codes (p : Port) (s : Sk) (a : Adr) (name : List Nat) : (p ≠ .spreadtrum → convert p .otherErr = -2000) ∧ convert .spreadtrum .otherErr = -1 ∧ (bindTo p false s a).1 = -2000 ∧
    (bindDevice .harmony true s name).1 = -2000 := by
  refine ⟨?_, rfl, rfl, rfl⟩
  intro h; cases p <;> first | (exact absurd rfl h) | rfl

/-- An interrupted call is told apart, except on spreadtrum. -/
theorem intr_is_told_apart (p : Port) (hp : p ≠ .spreadtrum) (w : Why) : convert p w = -2002 ↔ w = .intr := by
  cases p <;> cases w <;> first | (exact absurd rfl hp) | decide

/-- A call that failed without a reason is reported as a success, on every port: a read would be the end of the stream. -/
theorem no_reason_is_success (p : Port) : convert p .none = 0 := by cases p <;> rfl

example : ConnectsRight .windows ∧ mpqConnect .windows (some .otherErr) = .fails ∧ mpqConnect .esp32 (some .again) = .fails :=
  ⟨connects_right_partial .windows (by decide), by decide, by decide⟩

end Verif.PortSock
