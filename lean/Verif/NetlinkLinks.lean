import Verif.NetlinkProps
/-!
  C148 (links), C149: the interface cache holds what the kernel's link messages say.
  C150: every route notification leads to a check of the default route.
-/
namespace Verif.Netlink

/-! ### Specification -/
namespace Spec

/-- For the statements and proofs about the models imported; models no code of its own. -/
structure Link where
  family : Byte
  pad0 : Byte
  type : Nat
  index : Nat
  flags : Nat
  change : Nat
  attrs : List Attr

/-- For the statements and proofs about the models imported; models no code of its own. -/
def Link.body (l : Link) : List Byte :=
  [l.family, l.pad0] ++ le16 l.type ++ le32 l.index ++ le32 l.flags ++ le32 l.change ++ l.attrs.flatMap Attr.bytes

/-- a message about links, a route message or one of another type (not DONE or ERROR). Models no code of its own. -/
inductive LMsg where
  | newLink (h : Hdr) (l : Link)
  | delLink (h : Hdr) (l : Link)
  | other (h : Hdr) (type : Nat) (body : List Byte)

/-- For the statements and proofs about the models imported; models no code of its own. -/
def LMsg.bytes : LMsg → List Byte
  | .newLink h l => message h 16 l.body
  | .delLink h l => message h 17 l.body
  | .other h t b => message h t b

/-- For the statements and proofs about the models imported; models no code of its own. -/
def ldatagram (ms : List LMsg) : List Byte := ms.flatMap LMsg.bytes

/-- fields fit, and the interface name is terminated inside its attribute. Models no code of its own. -/
def LMsg.Fits : LMsg → Prop
  | .newLink _ l | .delLink _ l => l.type < 65536 ∧ l.index < 2 ^ 31 ∧ (∀ a ∈ l.attrs, a.Fits) ∧
      ∀ a ∈ l.attrs, a.type = 3 → (0 : Byte) ∈ a.data
  | .other _ t _ => t < 65536 ∧ t ≠ 2 ∧ t ≠ 3 ∧ t ≠ 16 ∧ t ≠ 17

/-- the characters before the terminating zero. Models no code of its own. -/
def cname (d : List Byte) : List Char := (d.takeWhile (· ≠ 0)).map fun x => Char.ofNat x.toNat

/-- the interfaces: index to name (at most 63 characters; empty if the message has none) and type -/
abbrev Table := Int → Option (List Char × Int)

/-- For the statements and proofs about the models imported; models no code of its own. -/
def Table.apply (m : Table) : LMsg → Table
  | .newLink _ l => fun i => if i = l.index then some ((((attr l.attrs 3).map cname).getD []).take 63, (l.type : Int)) else m i
  | .delLink _ l => fun i => if i = l.index then none else m i
  | .other .. => m

end Spec

/-! ### C148: link messages -/

theorem updateIfinfos_log (b : Mem) (memOk : Bool) (off nl ty : Nat) (l : L) :
    (∀ a ∈ (updateIfinfos b memOk off nl ty l).log, a ∈ l.log ∨ a.1 + a.2 ≤ off + nl) ∧
    (updateIfinfos b memOk off nl ty l).out = l.out := by
  have P := C148_attributes b (off + 32) ((nl : Int) - 32) IFLA_CNT
  unfold updateIfinfos
  split
  · exact ⟨fun a h => .inl h, rfl⟩
  · split
    · exact ⟨fun a h => .inl h, rfl⟩
    · simp only
      split
      · refine ⟨?_, rfl⟩
        intro a ha
        simp only [List.mem_append, List.mem_singleton] at ha
        rcases ha with ha | rfl
        · exact .inl ha
        · exact .inr (by simp only; omega)
      · refine ⟨?_, rfl⟩
        intro a ha
        simp only [List.mem_append, List.mem_singleton] at ha
        rcases ha with ((ha | rfl) | ha) | rfl
        · exact .inl ha
        · exact .inr (by simp only; omega)
        · have := P.1 a ha; exact .inr (by omega)
        · exact .inr (by simp only; omega)

theorem linkLoop_log (b : Mem) (memOk : Bool) (n : Nat) : ∀ (k off : Nat) (len : Int) (l : L), (off : Int) + len ≤ n →
    (∀ a ∈ l.log, a.1 + a.2 ≤ n) →
    (∀ a ∈ (linkLoop b memOk k off len l).1.log, a.1 + a.2 ≤ n) ∧ (linkLoop b memOk k off len l).1.out = l.out := by
  intro k
  induction k with
  | zero => intro off len l _ h; exact ⟨h, rfl⟩
  | succ k ih =>
    intro off len l hn h1
    have app : ∀ (x : List Acc), (∀ a ∈ x, a.1 + a.2 ≤ n) → ∀ a ∈ l.log ++ x, a.1 + a.2 ≤ n := by
      intro x hx a ha
      rcases List.mem_append.1 ha with ha | ha
      · exact h1 a ha
      · exact hx a ha
    unfold linkLoop
    split
    · exact ⟨h1, rfl⟩
    · simp only
      have l1 : ∀ a ∈ l.log ++ [(off, 4)], a.1 + a.2 ≤ n := app _ (by
        intro a ha; simp only [List.mem_singleton] at ha; subst ha; simp only; omega)
      have l2 : ∀ a ∈ l.log ++ [(off, 4)] ++ [(off + 4, 2)], a.1 + a.2 ≤ n := by
        rw [List.append_assoc]
        apply app
        intro a ha; simp only [List.mem_append, List.mem_singleton] at ha
        rcases ha with rfl | rfl <;> simp only <;> omega
      split
      · exact ⟨l1, rfl⟩
      · rename_i hnl
        split
        · exact ⟨l2, rfl⟩
        · split
          · split
            · exact ⟨l2, rfl⟩
            · refine ⟨?_, rfl⟩
              intro a ha
              simp only at ha
              rcases List.mem_append.1 ha with ha | ha
              · exact l2 a ha
              · simp only [List.mem_singleton] at ha; subst ha; simp only; omega
          · have ha4 := align4_ge (u32 b off)
            have R := updateIfinfos_log b memOk off (u32 b off) (u16 b (off + 4))
              { l with log := l.log ++ [(off, 4)] ++ [(off + 4, 2)] }
            have := ih (off + align4 (u32 b off)) (len - align4 (u32 b off))
              (updateIfinfos b memOk off (u32 b off) (u16 b (off + 4))
                { l with log := l.log ++ [(off, 4)] ++ [(off + 4, 2)] }) (by omega)
              (by
                intro a ha
                rcases R.1 a ha with h | h
                · exact l2 a h
                · omega)
            exact ⟨this.1, this.2.trans R.2⟩

seal linkLoop in
/-- C148, the link dump, for any datagrams: except for the text of interface names, nothing is read beyond
    the data received. -/
theorem C148_links (memOk : Bool) (rs : List (Option (List Byte))) (junk : Mem) (s : Netifs.State) (l : L) (r : Int)
    (h : initNetifs memOk rs junk (L.init s) = some (l, r)) : l.out = [] := by
  have key : ∀ (rs : List (Option (List Byte))) (b : Mem) (l0 : L), l0.log = [] → l0.out = [] →
      initNetifs memOk rs b l0 = some (l, r) → l.out = [] := by
    intro rs
    induction rs with
    | nil => intro b l0 _ _ h; simp [initNetifs] at h
    | cons x rs ih =>
      intro b l0 h1 h2 h
      match x with
      | none =>
        simp only [initNetifs, Option.some.injEq, Prod.mk.injEq] at h
        rw [← h.1]; exact h2
      | some d =>
        unfold initNetifs at h
        split at h
        · simp only [Option.some.injEq, Prod.mk.injEq] at h
          rw [← h.1]; exact h2
        · simp only at h
          have M := linkLoop_log (fill b d) memOk (min d.length BUF) (min d.length BUF + 1) 0 (min d.length BUF : Nat) l0
            (by omega) (by simp [h1])
          have hb : ∀ x : L, (∀ a ∈ x.log, a.1 + a.2 ≤ min d.length BUF) → beyond (min d.length BUF) x.log = [] := by
            intro x hx
            simp only [beyond, List.map_eq_nil_iff, List.filter_eq_nil_iff, decide_eq_true_eq]
            intro a ha; have := hx a ha; omega
          split at h
          · simp only [Option.some.injEq, Prod.mk.injEq] at h
            rw [← h.1]
            simp only [L.next, M.2, h2, hb _ M.1, List.append_nil]
          · refine ih _ _ rfl ?_ h
            simp only [L.next, M.2, h2, hb _ M.1, List.append_nil]
  exact key rs junk _ rfl rfl h

/-! ### C149 -/

theorem cstr_enc {b : Mem} : ∀ (d : List Byte) (k o : Nat), Holds b o d → (0 : Byte) ∈ d → d.length ≤ k →
    cstr b k o = Spec.cname d ∧ (Spec.cname d).length + 1 ≤ d.length := by
  intro d
  induction d with
  | nil => intro k o _ h; simp at h
  | cons x d ih =>
    intro k o hb hm hk
    simp only [List.length_cons] at hk
    obtain ⟨h1, h2⟩ := Holds.cons.1 hb
    match k, hk with
    | k + 1, hk =>
      unfold cstr
      rw [h1]
      by_cases hx : x = 0
      · subst hx; simp [Spec.cname]
      · have hxn : x.toNat ≠ 0 := fun h => hx (BitVec.eq_of_toNat_eq h)
        rw [if_neg hxn]
        have := ih k (o + 1) h2 ((List.mem_cons.1 hm).resolve_left (Ne.symm hx)) (by omega)
        simp only [Spec.cname, List.takeWhile_cons, hx, ne_eq, not_false_eq_true, decide_true, if_true, List.map_cons,
          List.length_cons] at this ⊢
        exact ⟨by rw [this.1], by omega⟩

/-- the cache call that a message stands for. Models no code of its own. -/
def Spec.LMsg.op (memOk : Bool) : Spec.LMsg → Option Netifs.Op
  | .newLink _ l => some (.update memOk false l.index ((Spec.attr l.attrs 3).map Spec.cname) l.type)
  | .delLink _ l => some (.update memOk true l.index none 0)
  | .other .. => none

/-- For the statements and proofs about the models imported; models no code of its own. -/
def Spec.LMsg.type : Spec.LMsg → Nat
  | .newLink .. => 16
  | .delLink .. => 17
  | .other _ t _ => t
/-- For the statements and proofs about the models imported; models no code of its own. -/
def Spec.LMsg.body : Spec.LMsg → List Byte
  | .newLink _ l => l.body
  | .delLink _ l => l.body
  | .other _ _ b => b
/-- For the statements and proofs about the models imported; models no code of its own. -/
def Spec.LMsg.hdr : Spec.LMsg → Spec.Hdr
  | .newLink h _ => h
  | .delLink h _ => h
  | .other h _ _ => h

theorem lmsg_bytes (m : Spec.LMsg) : m.bytes = Spec.message m.hdr m.type m.body := by cases m <;> rfl

/-- For the statements and proofs about the models imported; models no code of its own. -/
def runOpt (s : Netifs.State) : Option Netifs.Op → Netifs.State
  | none => s
  | some op => Netifs.step s op

theorem link_enc {b : Mem} {off : Nat} {lk : Spec.Link} (hb : Holds b off lk.body) (hf : lk.type < 65536 ∧ lk.index < 2 ^ 31) :
    i32 b (off + 4) = lk.index ∧ u16 b (off + 2) = lk.type ∧ Holds b (off + 16) (lk.attrs.flatMap Spec.Attr.bytes) := by
  simp only [Spec.Link.body, Holds.append] at hb
  obtain ⟨⟨⟨⟨⟨_, h1⟩, h2⟩, _⟩, _⟩, h3⟩ := hb
  simp only [Spec.le32, Spec.le16, List.length_append, List.length_cons, List.length_nil] at h1 h2 h3
  have h1 := u16_holds (n := lk.type) h1
  have h2 := u32_holds (n := lk.index) h2
  refine ⟨?_, ?_, h3⟩
  · have e : u32 b (off + 4) = lk.index := by
      rw [show off + 4 = off + (0 + 1 + 1 + (0 + 1 + 1)) by rfl, h2]; omega
    simp only [i32, e, if_pos hf.2]
  · rw [show off + 2 = off + (0 + 1 + 1) by rfl, h1]; omega

/-- one encoded message -/
theorem updateIfinfos_enc {b : Mem} (memOk : Bool) {off : Nat} {m : Spec.LMsg} {l : L} (n : Nat)
    (hb : Holds b off m.bytes) (hf : m.Fits) (hn : off + m.bytes.length ≤ n) :
    (updateIfinfos b memOk off (16 + m.body.length) m.type l).nifs = runOpt l.nifs (m.op memOk) ∧
    (updateIfinfos b memOk off (16 + m.body.length) m.type l).nameOut = l.nameOut ∧
    ((∀ a ∈ l.names, a.1 + a.2 ≤ n) → ∀ a ∈ (updateIfinfos b memOk off (16 + m.body.length) m.type l).names, a.1 + a.2 ≤ n) := by
  have hb' : Holds b (off + 16) m.body := by
    rw [lmsg_bytes] at hb
    simp only [Spec.message, Holds.append] at hb
    simpa [Spec.le32, Spec.le16] using hb.1.2
  have hbl : m.bytes.length = 16 + align4 m.body.length := by rw [lmsg_bytes, message_len]
  have hal := align4_ge m.body.length
  match m, hf with
  | .other h t body, ⟨_, _, _, f4, f5⟩ =>
    have x1 : RTM_NEWLINK = 16 := rfl
    have x2 : RTM_DELLINK = 17 := rfl
    have : updateIfinfos b memOk off (16 + body.length) t l = l := by
      unfold updateIfinfos
      rw [if_pos ⟨f4, f5⟩]
    simp only [Spec.LMsg.type, Spec.LMsg.body]
    rw [this]
    exact ⟨rfl, rfl, id⟩
  | .delLink h lk, ⟨f1, f2, f3, f4⟩ =>
    simp only [Spec.LMsg.type, Spec.LMsg.body] at hb' hbl hal ⊢
    obtain ⟨e1, e2, e3⟩ := link_enc hb' ⟨f1, f2⟩
    have hl : 16 ≤ lk.body.length := by simp [Spec.Link.body, Spec.le16, Spec.le32]
    unfold updateIfinfos
    have e1 : i32 b (off + 20) = lk.index := e1
    rw [if_neg (by simp [RTM_DELLINK]), if_neg (by omega)]
    simp only [RTM_DELLINK, if_true, e1]
    exact ⟨rfl, trivial, id⟩
  | .newLink h lk, ⟨f1, f2, f3, f4⟩ =>
    simp only [Spec.LMsg.type, Spec.LMsg.body] at hb' hbl hal ⊢
    obtain ⟨e1, e2, e3⟩ := link_enc hb' ⟨f1, f2⟩
    have hbody : lk.body.length = 16 + (lk.attrs.flatMap Spec.Attr.bytes).length := by
      simp only [Spec.Link.body, Spec.le16, Spec.le32, List.length_append, List.length_cons, List.length_nil]
    have e1 : i32 b (off + 20) = lk.index := e1
    have e2 : u16 b (off + 18) = lk.type := e2
    have e3 : Holds b (off + 32) (lk.attrs.flatMap Spec.Attr.bytes) := e3
    have hlen : (((16 + lk.body.length : Nat) : Int) - 32) = ((lk.attrs.flatMap Spec.Attr.bytes).length : Nat) := by omega
    have hp := parse_enc b IFLA_CNT lk.attrs ((lk.attrs.flatMap Spec.Attr.bytes).length + 1) (off + 32)
      ⟨fun _ => none, []⟩ e3 f3 (by omega) IFLA_IFNAME
    have hp : (parseRtattrs b (off + 32) (((16 + lk.body.length : Nat) : Int) - 32) IFLA_CNT).rtas IFLA_IFNAME =
        firstOff lk.attrs (off + 32) 3 := by
      rw [hlen]
      simp only [parseRtattrs, Int.toNat_natCast]
      rw [hp]
      simp [IFLA_CNT, IFLA_IFNAME]
    have F := firstOff_spec (t := 3) e3
    have A := C148_attributes b (off + 32) (((16 + lk.body.length : Nat) : Int) - 32) IFLA_CNT
    have key : (firstOff lk.attrs (off + 32) 3).map (fun o => cstr b 65536 (o + 4)) = (Spec.attr lk.attrs 3).map Spec.cname ∧
        ∀ o, firstOff lk.attrs (off + 32) 3 = some o → o + 4 + ((cstr b 65536 (o + 4)).length + 1) ≤ n := by
      cases hfo : firstOff lk.attrs (off + 32) 3 with
      | none => rw [F.1 hfo]; simp
      | some o =>
        obtain ⟨o1, a, o2, o3, o4, o5⟩ := F.2 o hfo
        have hd : Holds b (o + 4) a.data := by
          simp only [Spec.Attr.bytes, Holds.append] at o5
          simpa [Spec.le16] using o5.1.2
        have hsz := (f3 a o2).2
        obtain ⟨c1, c2⟩ := cstr_enc a.data 65536 (o + 4) hd (f4 a o2 o3) (by omega)
        rw [o4]
        refine ⟨by simp [c1], ?_⟩
        intro o' ho'
        simp only [Option.some.injEq] at ho'; subst ho'
        have B := A.2.1 IFLA_IFNAME o (by rw [hp, hfo])
        have hu : u16 b o = 4 + a.data.length := by
          simp only [Spec.Attr.bytes, Holds.append] at o5
          rw [u16_holds o5.1.1.1]; omega
        rw [c1]
        omega
    unfold updateIfinfos
    rw [if_neg (by simp [RTM_NEWLINK]), if_neg (by omega)]
    simp only
    rw [if_neg (by simp [RTM_DELLINK])]
    rw [hp]
    refine ⟨?_, rfl, ?_⟩
    · simp only [e1, e2, key.1, runOpt, Spec.LMsg.op, Netifs.step]
    · intro hnm a ha
      simp only at ha
      rcases List.mem_append.1 ha with ha | ha
      · exact hnm a ha
      · cases hfo : firstOff lk.attrs (off + 32) 3 with
        | none => simp [hfo] at ha
        | some o =>
          simp only [hfo, List.mem_singleton] at ha
          subst ha
          exact key.2 o hfo

theorem lmsg_type_lt {m : Spec.LMsg} (h : m.Fits) : m.type < 65536 ∧ m.type ≠ 2 ∧ m.type ≠ 3 := by
  match m, h with
  | .newLink .., _ => simp [Spec.LMsg.type]
  | .delLink .., _ => simp [Spec.LMsg.type]
  | .other .., h => exact ⟨h.1, h.2.1, h.2.2.1⟩

/-- a run of encoded messages with `rest` bytes after them -/
theorem linkLoop_enc {b : Mem} (memOk : Bool) (n : Nat) : ∀ (ms : List Spec.LMsg) (k off rest : Nat) (l : L),
    Holds b off (Spec.ldatagram ms) → (∀ m ∈ ms, m.Fits) → off + (Spec.ldatagram ms).length ≤ n → n < 2 ^ 32 →
    (Spec.ldatagram ms).length + rest < k → (∀ a ∈ l.names, a.1 + a.2 ≤ n) →
    ∃ k' l', rest < k' ∧ l'.nifs = Netifs.run l.nifs (ms.filterMap (Spec.LMsg.op memOk)) ∧ l'.nameOut = l.nameOut ∧
      (∀ a ∈ l'.names, a.1 + a.2 ≤ n) ∧
      linkLoop b memOk k off (((Spec.ldatagram ms).length + rest : Nat)) l =
      linkLoop b memOk k' (off + (Spec.ldatagram ms).length) (rest : Nat) l' := by
  intro ms
  induction ms with
  | nil =>
    intro k off rest l _ _ _ _ hk hn
    exact ⟨k, l, by simpa [Spec.ldatagram] using hk, by simp [Netifs.run], rfl, hn, by simp [Spec.ldatagram]⟩
  | cons m ms ih =>
    intro k off rest l hb hf hl hn32 hk hn
    have ed : Spec.ldatagram (m :: ms) = m.bytes ++ Spec.ldatagram ms := by simp [Spec.ldatagram]
    rw [ed] at hb hl hk
    simp only [List.length_append] at hl hk
    obtain ⟨h1, h2⟩ := Holds.append.1 hb
    have hfm := hf m (by simp)
    have hbl : m.bytes.length = 16 + align4 m.body.length := by rw [lmsg_bytes, message_len]
    have hal := align4_ge m.body.length
    have ht := lmsg_type_lt hfm
    obtain ⟨e1, e2⟩ := header_enc (lmsg_bytes m ▸ h1) ht.1 (by omega)
    have ea : align4 (16 + m.body.length) = m.bytes.length := by rw [hbl, align4_add _ _ (by omega)]
    match k, hk with
    | k + 1, hk =>
      have U := updateIfinfos_enc (l := { l with log := l.log ++ [(off, 4)] ++ [(off + 4, 2)] }) memOk n h1 hfm (by omega)
      obtain ⟨k', l', q0, q1, q2, q3, q4⟩ := ih k (off + m.bytes.length) rest
        (updateIfinfos b memOk off (16 + m.body.length) m.type { l with log := l.log ++ [(off, 4)] ++ [(off + 4, 2)] })
        h2 (fun x hx => hf x (by simp [hx])) (by omega) hn32 (by omega) (U.2.2 hn)
      refine ⟨k', l', q0, ?_, q2.trans U.2.1, q3, ?_⟩
      · rw [q1, U.1]
        cases hop : m.op memOk <;> simp [hop, runOpt, Netifs.run]
      · rw [ed]
        simp only [List.length_append]
        rw [show off + (m.bytes.length + (Spec.ldatagram ms).length) = off + m.bytes.length + (Spec.ldatagram ms).length by omega, ← q4]
        conv => lhs; unfold linkLoop
        rw [if_neg (by omega)]
        simp only [e1, e2]
        rw [if_neg (by omega), if_neg (by exact ht.2.2), if_neg (by exact ht.2.1), ea]
        congr 1
        omega

theorem linkLoop_stop (b : Mem) (memOk : Bool) (k off : Nat) (l : L) : linkLoop b memOk k off 0 l = (l, none) := by
  cases k <;> simp [linkLoop]

theorem linkLoop_done {b : Mem} {memOk : Bool} {k off : Nat} {l : L} {h : Spec.Hdr} {body : List Byte} {n : Nat}
    (hb : Holds b off (Spec.message h 3 body)) (hk : 0 < k) (hl : (Spec.message h 3 body).length < 2 ^ 32)
    (hn : (Spec.message h 3 body).length ≤ n) :
    ∃ x, linkLoop b memOk k off (n : Nat) l = ({ l with log := x }, some 0) := by
  have hlen := message_len h 3 body
  have ha := align4_ge body.length
  obtain ⟨e1, e2⟩ := header_enc hb (by omega) (by omega)
  match k, hk with
  | k + 1, _ =>
    unfold linkLoop
    rw [if_neg (by omega)]
    simp only [e1, e2]
    rw [if_neg (by omega)]
    simp only [NLMSG_DONE, if_true]
    exact ⟨_, rfl⟩

theorem ldatagram_pos {ms : List Spec.LMsg} (h : ms ≠ []) : 0 < (Spec.ldatagram ms).length := by
  match ms, h with
  | m :: ms, _ =>
    have : m.bytes.length = 16 + align4 m.body.length := by rw [lmsg_bytes, message_len]
    simp [Spec.ldatagram]; omega

theorem beyond_nil {n : Nat} {l : List Acc} (h : ∀ a ∈ l, a.1 + a.2 ≤ n) : beyond n l = [] := by
  simp only [beyond, List.map_eq_nil_iff, List.filter_eq_nil_iff, decide_eq_true_eq]
  intro a ha; have := h a ha; omega

seal linkLoop in
/-- the cache calls made by a complete dump, however many datagrams it takes -/
theorem initNetifs_enc (memOk : Bool) (h : Spec.Hdr) (body : List Byte) (hb : (Spec.message h 3 body).length ≤ 16384)
    (rest : List (Option (List Byte))) :
    ∀ (dss : List (List Spec.LMsg)) (b : Mem) (l : L),
    (∀ d ∈ dss, d ≠ [] ∧ (∀ m ∈ d, m.Fits) ∧ (Spec.ldatagram d).length ≤ 16384) → l.names = [] → l.nameOut = [] →
    ∃ l', initNetifs memOk (dss.map (fun d => some (Spec.ldatagram d)) ++ some (Spec.message h 3 body) :: rest) b l = some (l', 0) ∧
      l'.nifs = Netifs.run l.nifs (dss.flatten.filterMap (Spec.LMsg.op memOk)) ∧ l'.nameOut = [] := by
  have hB : BUF = 16384 := rfl
  intro dss
  induction dss with
  | nil =>
    intro b l _ hn hno
    have hml := message_len h 3 body
    have hmin : min (Spec.message h 3 body).length BUF = (Spec.message h 3 body).length := by omega
    obtain ⟨x, hx⟩ := linkLoop_done (memOk := memOk) (l := l) (k := (Spec.message h 3 body).length + 1) (n := (Spec.message h 3 body).length)
      (fill_holds b _ hb) (by omega) (by omega) (Nat.le_refl _)
    refine ⟨L.next (Spec.message h 3 body).length { l with log := x }, ?_, ?_, ?_⟩
    · simp only [List.map_nil, List.nil_append]
      unfold initNetifs
      rw [if_neg (by omega)]
      simp only [hmin, hx]
      rfl
    · simp [L.next, Netifs.run]
    · simp [L.next, hn, hno, beyond]
  | cons ms dss ih =>
    intro b l hd hn hno
    obtain ⟨h1, h2, h3⟩ := hd ms (by simp)
    have hpos := ldatagram_pos h1
    have hmin : min (Spec.ldatagram ms).length BUF = (Spec.ldatagram ms).length := by omega
    obtain ⟨k', l1, _, q1, q2, q3, q4⟩ := linkLoop_enc memOk (Spec.ldatagram ms).length ms ((Spec.ldatagram ms).length + 1) 0 0 l
      (fill_holds b _ h3) h2 (by omega) (by omega) (by omega) (by simp [hn])
    obtain ⟨l', r1, r2, r3⟩ := ih (fill b (Spec.ldatagram ms)) (l1.next (Spec.ldatagram ms).length)
      (fun x hx => hd x (by simp [hx])) rfl (by simp [L.next, q2, hno, beyond_nil q3])
    refine ⟨l', ?_, ?_, r3⟩
    · simp only [List.map_cons, List.cons_append]
      conv => lhs; unfold initNetifs
      rw [if_neg (by omega)]
      simp only [hmin]
      simp only [Nat.add_zero] at q4
      rw [q4, show ((0 : Nat) : Int) = 0 from rfl, linkLoop_stop]
      simp only [Option.isSome_none, Bool.false_eq_true, if_false]
      exact r1
    · rw [r2]
      simp [L.next, q1, List.filterMap_append, Netifs.run]

theorem table_run (ms : List Spec.LMsg) (hf : ∀ m ∈ ms, m.Fits) : ∀ (s : Netifs.State), Netifs.Inv s →
    Netifs.lookup (Netifs.run s (ms.filterMap (Spec.LMsg.op true))) = ms.foldl Spec.Table.apply (Netifs.lookup s) := by
  induction ms with
  | nil => intro s _; rfl
  | cons m ms ih =>
    intro s hi
    have ih := ih (fun x hx => hf x (by simp [hx]))
    match m with
    | .other .. =>
      have := ih s hi
      simp only [List.filterMap_cons, Spec.LMsg.op, List.foldl_cons, Spec.Table.apply]
      exact this
    | .newLink h lk =>
      have hu := Netifs.update_spec hi true false (lk.index : Int) ((Spec.attr lk.attrs 3).map Spec.cname) (lk.type : Int)
      have hr : (Netifs.update s true false (lk.index : Int) ((Spec.attr lk.attrs 3).map Spec.cname) (lk.type : Int)).2 = .ok := by
        unfold Netifs.update
        rw [if_neg (by omega)]
        simp only
        split
        · simp
        · simp only [Bool.false_eq_true, if_false]
          split <;> simp
      have hl := Netifs.lookup_step hi (.update true false lk.index ((Spec.attr lk.attrs 3).map Spec.cname) lk.type)
      simp only [Netifs.res, hr] at hl
      have hi' := Netifs.inv_run [.update true false lk.index ((Spec.attr lk.attrs 3).map Spec.cname) lk.type] s hi
      have := ih _ hi'
      simp only [Netifs.run, List.foldl_cons, List.foldl_nil] at this
      simp only [List.filterMap_cons, Spec.LMsg.op, Netifs.run, List.foldl_cons]
      rw [this, hl]
      rfl
    | .delLink h lk =>
      have hl := Netifs.lookup_step hi (.update true true lk.index none 0)
      have hi' := Netifs.inv_run [.update true true lk.index none 0] s hi
      have := ih _ hi'
      simp only [Netifs.run, List.foldl_cons, List.foldl_nil] at this
      simp only [List.filterMap_cons, Spec.LMsg.op, Netifs.run, List.foldl_cons]
      rw [this, hl]
      congr 1
      simp only [Spec.Table.apply]
      have hu := Netifs.update_spec hi true true (lk.index : Int) none 0
      have C := (Netifs.C71_cache_is_a_map []).2
      funext i
      simp only [Netifs.res]
      cases hres : (Netifs.update s true true (lk.index : Int) none 0).2 with
      | ok => simp [Netifs.Spec.step]
      | einval => exact absurd (hu.2.2.1.1 hres) (by omega)
      | enoent =>
        simp only [Netifs.Spec.step]
        split
        · rename_i e
          subst e
          unfold Netifs.update at hres
          rw [if_neg (by omega)] at hres
          simp only at hres
          split at hres
          · simp at hres
          · rename_i hfd
            simp [Netifs.lookup, Netifs.netifByIndex, hfd]
        · rfl
      | enomem =>
        unfold Netifs.update at hres
        rw [if_neg (by omega)] at hres
        simp only at hres
        split at hres <;> simp at hres

/-- C149. After the link dump at subscription, however many datagrams it takes, the cache holds exactly what
    the messages say, applied in order to what it held before: each reported interface with the name (at most
    63 characters) and type of its last message, deleted interfaces not at all; the function returns 0 and
    reads nothing beyond the data. The allocator is assumed to succeed. -/
theorem C149_link_dump (ops : List Netifs.Op) (dss : List (List Spec.LMsg)) (junk : Mem)
    (hds : ∀ d ∈ dss, d ≠ [] ∧ (∀ m ∈ d, m.Fits) ∧ (Spec.ldatagram d).length ≤ 16384)
    (h : Spec.Hdr) (body : List Byte) (hb : (Spec.message h 3 body).length ≤ 16384) (rest : List (Option (List Byte))) :
    let s := Netifs.run Netifs.State.init ops
    ∃ l, initNetifs true (dss.map (fun d => some (Spec.ldatagram d)) ++ some (Spec.message h 3 body) :: rest) junk (L.init s) =
        some (l, 0) ∧
      Netifs.lookup l.nifs = dss.flatten.foldl Spec.Table.apply (Netifs.lookup s) ∧ l.out = [] ∧ l.nameOut = [] := by
  intro s
  obtain ⟨l, h1, h2, h3⟩ := initNetifs_enc true h body hb rest dss junk (L.init s) hds rfl rfl
  refine ⟨l, h1, ?_, C148_links _ _ _ _ _ _ h1, h3⟩
  rw [h2]
  exact table_run _ (by
    intro m hm
    obtain ⟨d, hd, hm⟩ := List.mem_flatten.1 hm
    exact (hds d hd).2.1 m hm) s (Netifs.inv_run _ _ Netifs.inv_init)

/-! concrete links -/

/-- eth0, index 2, type 1 (Ethernet), with a hardware address before the name. Models no code of its own. -/
def lkEth : Spec.LMsg := .newLink hd0 ⟨0, 0, 1, 2, 4163, 0, [⟨1, [1, 2, 3, 4, 5, 6]⟩, ⟨3, [101, 116, 104, 48, 0]⟩]⟩
/-- a second interface, without a name. Models no code of its own. -/
def lkAnon : Spec.LMsg := .newLink hd0 ⟨0, 0, 772, 18, 73, 0, []⟩
/-- For the statements and proofs about the models imported; models no code of its own. -/
def lkDel : Spec.LMsg := .delLink hd0 ⟨0, 0, 772, 18, 73, 0, []⟩

theorem lkFits : lkEth.Fits ∧ lkAnon.Fits ∧ lkDel.Fits := by
  refine ⟨⟨by decide, by decide, ?_, ?_⟩, ⟨by decide, by decide, by simp, by simp⟩, ⟨by decide, by decide, by simp, by simp⟩⟩
  · intro a ha; simp at ha; rcases ha with rfl | rfl <;> simp [Spec.Attr.Fits]
  · intro a ha; simp at ha; rcases ha with rfl | rfl <;> simp

/-- the hypotheses of `C149_link_dump` hold of a dump of two datagrams; the second interface is deleted again -/
example : (∀ d ∈ [[lkEth, lkAnon], [lkDel]], d ≠ [] ∧ (∀ m ∈ d, m.Fits) ∧ (Spec.ldatagram d).length ≤ 16384) ∧
    ([[lkEth, lkAnon], [lkDel]].flatten.foldl Spec.Table.apply fun _ => none) 2 = some (['e', 't', 'h', '0'], 1) ∧
    ([[lkEth, lkAnon], [lkDel]].flatten.foldl Spec.Table.apply fun _ => none) 18 = none := by
  refine ⟨?_, by decide, by decide⟩
  intro d hd
  simp at hd
  obtain ⟨h1, h2, h3⟩ := lkFits
  rcases hd with rfl | rfl
  · refine ⟨by simp, ?_, by decide +kernel⟩
    intro m hm; simp at hm; rcases hm with rfl | rfl
    · exact h1
    · exact h2
  · refine ⟨by simp, ?_, by decide +kernel⟩
    intro m hm; simp at hm; subst hm; exact h3

/-- C148 fails for names: a name attribute without a terminating zero at the end of the datagram is read on
    into whatever the buffer held before. -/
theorem C148_name_unterminated :
    (initNetifs true [some (Spec.ldatagram [.newLink hd0 ⟨0, 0, 1, 2, 0, 0, [⟨3, [101, 116, 104, 48]⟩]⟩]),
        some (Spec.message hd0 3 [])] (fun i => if i < 50 then 65 else 0) (L.init Netifs.State.init)).map (fun r => r.1.nameOut) =
      some [((36, 15), 40)] ∧
    (initNetifs true [some (Spec.ldatagram [.newLink hd0 ⟨0, 0, 1, 2, 0, 0, [⟨3, [101, 116, 104, 48]⟩]⟩]),
        some (Spec.message hd0 3 [])] (fun i => if i < 50 then 65 else 0) (L.init Netifs.State.init)).map
        (fun r => (Netifs.lookup r.1.nifs 2).map Prod.fst) =
      some (some ['e', 't', 'h', '0', 'A', 'A', 'A', 'A', 'A', 'A', 'A', 'A', 'A', 'A']) := by
  constructor <;> decide +kernel

/-! ### C150: notifications -/

/-- the messages that announce a route change. Models no code of its own. -/
def Spec.LMsg.isRoute : Spec.LMsg → Bool
  | .other _ t _ => t = 24 ∨ t = 25
  | _ => false

seal updateIfinfos in
theorem processLoop_enc {b : Mem} (memOk : Bool) : ∀ (ms : List Spec.LMsg) (k off : Nat) (s : N) (n : Nat),
    Holds b off (Spec.ldatagram ms) → (∀ m ∈ ms, m.Fits) → off + (Spec.ldatagram ms).length = n → n ≤ 16384 →
    ms.length < k → (∀ a ∈ s.l.log, a.1 + a.2 ≤ n + 6) → (∀ a ∈ s.l.names, a.1 + a.2 ≤ n) →
    let s' := processLoop b memOk k off (BitVec.ofNat 64 (Spec.ldatagram ms).length) s
    s'.l.nifs = Netifs.run s.l.nifs (ms.filterMap (Spec.LMsg.op memOk)) ∧
    s'.checks = s.checks + ms.countP Spec.LMsg.isRoute ∧
    (∀ a ∈ s'.l.log, a.1 + a.2 ≤ n + 6) ∧ (∀ a ∈ s'.l.names, a.1 + a.2 ≤ n) := by
  intro ms
  induction ms with
  | nil =>
    intro k off s n _ _ hn _ hk hl hnm
    match k, hk with
    | k + 1, _ =>
      have l1 : ∀ a ∈ s.l.log ++ [(off + 4, 2)], a.1 + a.2 ≤ n + 6 := by
        intro a ha
        rcases List.mem_append.1 ha with ha | ha
        · exact hl a ha
        · simp only [List.mem_singleton] at ha; subst ha
          simp [Spec.ldatagram] at hn; simp only; omega
      unfold processLoop
      simp only
      split
      · exact ⟨rfl, rfl, l1, hnm⟩
      · rw [if_pos (by simp [Spec.ldatagram])]
        exact ⟨rfl, rfl, l1, hnm⟩
  | cons m ms ih =>
    intro k off s n hb hf hn hn16 hk hl hnm
    have ed : Spec.ldatagram (m :: ms) = m.bytes ++ Spec.ldatagram ms := by simp [Spec.ldatagram]
    rw [ed] at hb hn ⊢
    simp only [List.length_append] at hn
    obtain ⟨h1, h2⟩ := Holds.append.1 hb
    have hfm := hf m (by simp)
    have hbl : m.bytes.length = 16 + align4 m.body.length := by rw [lmsg_bytes, message_len]
    have hal := align4_ge m.body.length
    have ht := lmsg_type_lt hfm
    obtain ⟨e1, e2⟩ := header_enc (lmsg_bytes m ▸ h1) ht.1 (by omega)
    have ea : alignU32 (16 + m.body.length) = m.bytes.length := by
      have : align4 (16 + m.body.length) = m.bytes.length := by rw [hbl, align4_add _ _ (by omega)]
      have h2 : (16 + m.body.length) % 2 ^ 32 = 16 + m.body.length := Nat.mod_eq_of_lt (by omega)
      simp only [alignU32]
      rw [h2, this, Nat.mod_eq_of_lt (by omega)]
    match k, hk with
    | k + 1, hk =>
      simp only [List.length_cons] at hk
      unfold processLoop
      simp only [e1, e2, ea, List.length_append]
      have hlen : (BitVec.ofNat 64 (m.bytes.length + (Spec.ldatagram ms).length)).toNat = m.bytes.length + (Spec.ldatagram ms).length := by
        rw [BitVec.toNat_ofNat]; omega
      have hsub : BitVec.ofNat 64 (m.bytes.length + (Spec.ldatagram ms).length) - BitVec.ofNat 64 m.bytes.length =
          BitVec.ofNat 64 (Spec.ldatagram ms).length := by
        rw [BitVec.ofNat_add]
        rw [BitVec.add_comm, BitVec.add_sub_cancel]
      rw [if_neg (by exact ht.2.2), hlen, if_neg (by omega), if_neg (by omega), hsub]
      have l2 : ∀ a ∈ s.l.log ++ [(off + 4, 2)] ++ [(off, 4)], a.1 + a.2 ≤ n + 6 := by
        intro a ha
        rw [List.append_assoc] at ha
        rcases List.mem_append.1 ha with ha | ha
        · exact hl a ha
        · simp only [List.mem_append, List.mem_singleton] at ha
          rcases ha with rfl | rfl <;> simp only <;> omega
      have U := updateIfinfos_enc (l := { s.l with log := s.l.log ++ [(off + 4, 2)] ++ [(off, 4)] }) memOk n h1 hfm (by omega)
      have UL := updateIfinfos_log b memOk off (16 + m.body.length) m.type { s.l with log := s.l.log ++ [(off + 4, 2)] ++ [(off, 4)] }
      by_cases hlk : m.type = RTM_NEWLINK ∨ m.type = RTM_DELLINK
      · rw [if_pos hlk]
        have := ih k (off + m.bytes.length)
          { s with l := updateIfinfos b memOk off (16 + m.body.length) m.type { s.l with log := s.l.log ++ [(off + 4, 2)] ++ [(off, 4)] } }
          n h2 (fun x hx => hf x (by simp [hx])) (by omega) hn16 (by omega)
          (by
            intro a ha
            rcases UL.1 a ha with h | h
            · exact l2 a h
            · omega)
          (U.2.2 hnm)
        refine ⟨?_, ?_, this.2.2⟩
        · rw [this.1, U.1]
          cases hop : m.op memOk <;> simp [hop, runOpt, Netifs.run]
        · rw [this.2.1]
          have hir : m.isRoute = false := by
            match m with
            | .newLink .. => rfl
            | .delLink .. => rfl
            | .other h t body =>
              have x1 : RTM_NEWLINK = 16 := rfl
              have x2 : RTM_DELLINK = 17 := rfl
              simp only [Spec.LMsg.Fits] at hfm
              simp only [Spec.LMsg.type, x1, x2] at hlk
              omega
          simp [List.countP_cons, hir]
      · rw [if_neg hlk]
        have hop : m.op memOk = none := by
          match m with
          | .newLink .. => exact absurd (.inl rfl) hlk
          | .delLink .. => exact absurd (.inr rfl) hlk
          | .other .. => rfl
        by_cases hrt : m.type = RTM_NEWROUTE ∨ m.type = RTM_DELROUTE
        · rw [if_pos hrt]
          have := ih k (off + m.bytes.length)
            { l := { s.l with log := s.l.log ++ [(off + 4, 2)] ++ [(off, 4)] }, checks := s.checks + 1 }
            n h2 (fun x hx => hf x (by simp [hx])) (by omega) hn16 (by omega) l2 hnm
          refine ⟨?_, ?_, this.2.2⟩
          · rw [this.1]; simp [hop]
          · rw [this.2.1]
            have hir : m.isRoute = true := by
              match m with
              | .newLink .. => exact absurd (.inl rfl) hlk
              | .delLink .. => exact absurd (.inr rfl) hlk
              | .other h t body => simpa [Spec.LMsg.isRoute, Spec.LMsg.type, RTM_NEWROUTE, RTM_DELROUTE] using hrt
            simp [List.countP_cons, hir]; omega
        · rw [if_neg hrt]
          have := ih k (off + m.bytes.length)
            { s with l := { s.l with log := s.l.log ++ [(off + 4, 2)] ++ [(off, 4)] } }
            n h2 (fun x hx => hf x (by simp [hx])) (by omega) hn16 (by omega) l2 hnm
          refine ⟨?_, ?_, this.2.2⟩
          · rw [this.1]; simp [hop]
          · rw [this.2.1]
            have hir : m.isRoute = false := by
              match m with
              | .newLink .. => exact absurd (.inl rfl) hlk
              | .delLink .. => exact absurd (.inr rfl) hlk
              | .other h t body => simpa [Spec.LMsg.isRoute, Spec.LMsg.type, RTM_NEWROUTE, RTM_DELROUTE] using hrt
            simp [List.countP_cons, hir]

/-- C150. A notification datagram made of any number of messages, each padded to a multiple of four bytes, is
    gone through completely: the default route is checked once for every message that announces a route
    change, the link messages are applied to the interface cache in order, and at most the two bytes of one
    message type (6 bytes beyond the data) are read too far. Partial: without the padding the loop runs on
    (`C150_unpadded`). -/
theorem C150_notifications_partial (ops : List Netifs.Op) (junk : Mem) (ms : List Spec.LMsg) (hne : ms ≠ [])
    (hf : ∀ m ∈ ms, m.Fits) (hl : (Spec.ldatagram ms).length ≤ 16384) (k : Nat) (hk : ms.length < k) :
    let s := Netifs.run Netifs.State.init ops
    let r := onData junk true k (Spec.ldatagram ms) s
    Netifs.lookup r.l.nifs = ms.foldl Spec.Table.apply (Netifs.lookup s) ∧
    r.checks = ms.countP Spec.LMsg.isRoute ∧
    (∀ a ∈ r.l.log, a.1 + a.2 ≤ (Spec.ldatagram ms).length + 6) ∧
    (∀ a ∈ r.l.names, a.1 + a.2 ≤ (Spec.ldatagram ms).length) := by
  intro s r
  have hpos := ldatagram_pos hne
  have hB : BUF = 16384 := rfl
  have hmin : min (Spec.ldatagram ms).length BUF = (Spec.ldatagram ms).length := by omega
  have hr : r = processLoop (fill junk (Spec.ldatagram ms)) true k 0 (BitVec.ofNat 64 (Spec.ldatagram ms).length) ⟨L.init s, 0⟩ := by
    simp only [r, onData, if_pos hpos, hmin]
  have P := processLoop_enc true ms k 0 ⟨L.init s, 0⟩ (Spec.ldatagram ms).length
    (fill_holds junk _ hl) hf (by omega) hl hk (by simp [L.init]) (by simp [L.init])
  simp only at P
  rw [hr]
  refine ⟨?_, by rw [P.2.1]; simp, P.2.2⟩
  rw [P.1]
  exact table_run _ hf s (Netifs.inv_run _ _ Netifs.inv_init)

/-- a datagram with a new interface and a new route: one check, the interface is known afterwards -/
example : let r := onData (fun _ => 0) true 3 (Spec.ldatagram [lkEth, .other hd0 24 [2, 0, 0, 0]]) Netifs.State.init
    r.checks = 1 ∧ Netifs.lookup r.l.nifs 2 = some (['e', 't', 'h', '0'], 1) := by
  decide +kernel

/-- C150 fails for a datagram whose last message is not padded: the unsigned length wraps around and the loop
    goes on in the old contents of the buffer. With these it never ends: after any number of rounds it is
    still reading the same bytes, which are beyond the 17 bytes received. -/
theorem C150_unpadded :
    ∃ (junk : Mem) (d : List Byte), d.length = 17 ∧
      ∀ k, ((onData junk true (k + 1) d Netifs.State.init).l.log.count (20, 4)) = k := by
  let junk : Mem := fun i => if 20 ≤ i ∧ i < 24 then 255 else 0
  let d : List Byte := [17, 0, 0, 0, 1, 0, 0, 0, 0, 0, 0, 0, 0, 0, 0, 0, 7]
  have hu : u32 (fill junk d) 20 = 4294967295 := by decide
  have ht : u16 (fill junk d) 24 = 0 := by decide
  have hloop : ∀ (k : Nat) (s : N),
      (processLoop (fill junk d) true k 20 (BitVec.ofNat 64 17 - BitVec.ofNat 64 20) s).l.log.count (20, 4) =
        s.l.log.count (20, 4) + k := by
    intro k
    induction k with
    | zero => intro s; rfl
    | succ k ih =>
      intro s
      unfold processLoop
      simp only [hu, ht]
      rw [if_neg (by decide), if_neg (by decide), if_neg (by decide), if_neg (by decide), if_neg (by decide)]
      have ea : alignU32 4294967295 = 0 := by decide
      rw [ea, show (BitVec.ofNat 64 17 - BitVec.ofNat 64 20 - BitVec.ofNat 64 0) = BitVec.ofNat 64 17 - BitVec.ofNat 64 20 by decide, ih]
      simp [List.count_append, List.count_cons, List.count_nil]
      omega
  refine ⟨junk, d, rfl, ?_⟩
  intro k
  have hu0 : u32 (fill junk d) 0 = 17 := by decide
  have ht0 : u16 (fill junk d) 4 = 1 := by decide
  have hd : min d.length BUF = 17 := by decide
  unfold onData
  rw [if_pos (by decide), hd]
  unfold processLoop
  simp only [hu0, Nat.zero_add, ht0]
  rw [if_neg (by decide), if_neg (by decide), if_neg (by decide), if_neg (by decide), if_neg (by decide)]
  have ea : alignU32 17 = 20 := by decide
  rw [ea, hloop]
  simp [L.init, List.count_append, List.count_cons, List.count_nil]

/-! ### C151: the monitoring socket -/

/-- a subscription: subscribing, any number of socket errors, and unsubscribing, in which every creation of
    the socket succeeds (the descriptors are whatever the system returns). Models no code of its own. -/
def goodSession (fd : Nat) (errs : List Nat) : List MonOp :=
  .subscribe (some fd) true true :: errs.map (fun f => .error (some f) true true) ++ [.unsubscribe]

/-- C151. In any sequence of subscriptions with any number of socket errors, in which the socket can always be
    created, bound and registered, every socket is closed exactly once (none is left open after the last
    one) and no other descriptor is ever closed. Partial: see the two theorems below. -/
theorem C151_closed_once_partial (ss : List (Nat × List Nat)) :
    let m := Mon.run Mon.init (ss.flatMap fun x => goodSession x.1 x.2)
    m.live = [] ∧ m.stray = 0 ∧ m.registered = none ∧ m.stored = none := by
  have one : ∀ (x : Nat × List Nat), Mon.run Mon.init (goodSession x.1 x.2) = Mon.init := by
    intro x
    have mid : ∀ (errs : List Nat) (f : Nat), ∃ g, Mon.run ⟨some f, [f], some f, 0⟩ (errs.map fun f => .error (some f) true true) =
        ⟨some g, [g], some g, 0⟩ := by
      intro errs
      induction errs with
      | nil => intro f; exact ⟨f, rfl⟩
      | cons e errs ih =>
        intro f
        obtain ⟨g, hg⟩ := ih e
        refine ⟨g, ?_⟩
        simp only [List.map_cons, Mon.run, List.foldl_cons]
        have : Mon.step ⟨some f, [f], some f, 0⟩ (.error (some e) true true) = ⟨some e, [e], some e, 0⟩ := by
          simp [Mon.step, Mon.close, Mon.create]
        rw [this]; exact hg
    obtain ⟨g, hg⟩ := mid x.2 x.1
    simp only [goodSession, Mon.run, List.cons_append, List.foldl_cons, List.foldl_append]
    have e1 : Mon.step Mon.init (.subscribe (some x.1) true true) = ⟨some x.1, [x.1], some x.1, 0⟩ := rfl
    rw [e1]
    simp only [Mon.run] at hg
    rw [hg]
    simp [Mon.step, Mon.close, Mon.init]
  have all : ∀ ss : List (Nat × List Nat), Mon.run Mon.init (ss.flatMap fun x => goodSession x.1 x.2) = Mon.init := by
    intro ss
    induction ss with
    | nil => rfl
    | cons x ss ih =>
      simp only [List.flatMap_cons, Mon.run, List.foldl_append]
      have := one x
      simp only [Mon.run] at this ih
      rw [this]; exact ih
  intro m
  have : m = Mon.init := all ss
  rw [this]
  exact ⟨rfl, rfl, rfl, rfl⟩

example : (Mon.run Mon.init (goodSession 7 [8, 7] ++ goodSession 9 [])).stray = 0 ∧
    (Mon.run Mon.init [.subscribe (some 7) true true, .error (some 8) true true]).live = [8] := by decide

/-- C151 fails: if binding or registering the socket fails, its descriptor is closed twice; the second close
    hits whatever another thread may have opened in between. -/
theorem C151_double_close (fd : Nat) (bindOk : Bool) :
    (Mon.run Mon.init [.subscribe (some fd) bindOk false]).stray = 1 ∧
    (Mon.run Mon.init [.subscribe (some fd) false true]).stray = 1 := by
  cases bindOk <;> simp [Mon.run, Mon.step, Mon.create, Mon.close, Mon.init]

/-- C151 fails: if the socket cannot be created anew after an error, the old descriptor number stays stored
    and is closed again when unsubscribing. -/
theorem C151_stale_descriptor (fd : Nat) :
    (Mon.run Mon.init [.subscribe (some fd) true true, .error none true true]).stray = 0 ∧
    (Mon.run Mon.init [.subscribe (some fd) true true, .error none true true, .unsubscribe]).stray = 1 := by
  simp [Mon.run, Mon.step, Mon.create, Mon.close, Mon.init]

end Verif.Netlink
