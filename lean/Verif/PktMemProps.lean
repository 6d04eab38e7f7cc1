import Verif.PktMem
/-! # C223: a datagram arrives with the address of its sender; C224: waiting data keeps its flags and destination -/
namespace Verif.PktMem

/-! ## Alignment and memory -/

theorem up_dvd (W x : Nat) : W ∣ up W x := ⟨_, Nat.mul_comm _ _⟩

theorem up_bounds (W x : Nat) (hW : 0 < W) : x ≤ up W x ∧ up W x < x + W := by
  unfold up
  have h1 := Nat.div_add_mod (x + (W - 1)) W
  have h2 := Nat.mod_lt (x + (W - 1)) hW
  rw [Nat.mul_comm] at h1
  omega

theorem up_add (W x y : Nat) (hW : 0 < W) (h : W ∣ x) : up W (x + y) = x + up W y := by
  obtain ⟨k, rfl⟩ := h
  unfold up
  have : W * k + y + (W - 1) = (y + (W - 1)) + W * k := by omega
  rw [this, Nat.add_mul_div_left _ _ hW, Nat.add_mul, Nat.mul_comm k W]
  omega

theorem up_of_dvd (W x : Nat) (hW : 0 < W) (h : W ∣ x) : up W x = x := by
  have := up_add W x 0 hW h
  simp only [Nat.add_zero] at this
  rw [this]
  have h0 := up_bounds W 0 hW
  obtain ⟨k, hk⟩ := up_dvd W 0
  have : k = 0 := by
    rcases Nat.eq_zero_or_pos k with h | h
    · exact h
    · exfalso
      have : W * 1 ≤ W * k := Nat.mul_le_mul_left W h
      omega
  rw [hk, this]; simp

theorem rd_some (b : Blk) (a n : Nat) (h1 : b.base ≤ a) (h2 : a + n ≤ b.base + b.mem.length) : ∃ l, rd b a n = some l ∧ l.length = n := by
  refine ⟨_, by rw [rd, if_pos ⟨h1, h2⟩], ?_⟩
  simp; omega

theorem wr_some (b : Blk) (a : Nat) (bs : List Nat) (h1 : b.base ≤ a) (h2 : a + bs.length ≤ b.base + b.mem.length) :
    ∃ b', wr b a bs = some b' ∧ b'.base = b.base ∧ b'.mem.length = b.mem.length ∧ rd b' a bs.length = some bs ∧
      ∀ a' n, a' + n ≤ a ∨ a + bs.length ≤ a' → rd b' a' n = rd b a' n := by
  refine ⟨{ b with mem := b.mem.take (a - b.base) ++ bs ++ b.mem.drop (a - b.base + bs.length) }, by rw [wr, if_pos ⟨h1, h2⟩], rfl, ?_, ?_, ?_⟩
  · simp; omega
  · simp only [rd]
    rw [if_pos ⟨h1, by simp; omega⟩]
    congr 1
    rw [List.append_assoc, List.drop_append_of_le_length (by simp; omega), List.drop_of_length_le (by simp; omega)]
    simp
  · intro a' n hd
    simp only [rd]
    have hl : (b.mem.take (a - b.base) ++ bs ++ b.mem.drop (a - b.base + bs.length)).length = b.mem.length := by simp; omega
    rw [hl]
    split
    · rename_i hb
      congr 1
      apply List.ext_getElem?
      intro i
      simp only [List.getElem?_take, List.getElem?_drop, List.getElem?_append, List.length_append, List.length_take]
      grind
    · rfl

theorem wr_nil (b : Blk) (a : Nat) (h1 : b.base ≤ a) (h2 : a ≤ b.base + b.mem.length) : wr b a [] = some b := by
  rw [wr, if_pos ⟨h1, by simpa using h2⟩]
  simp

theorem rd_prefix (b : Blk) (a n m : Nat) (l l' : List Nat) (h : n ≤ m) (h1 : rd b a n = some l) (h2 : rd b a m = some l') : l'.take n = l := by
  simp only [rd] at h1 h2
  split at h1
  · split at h2
    · cases h1; cases h2; rw [List.take_take, Nat.min_eq_left h]
    · cases h2
  · cases h1

/-! ## C223 -/

structure Good (c : Cfg) (s : Rd) : Prop where
  al : c.W ∣ s.blk.base
  len : s.blk.mem.length = blkSize c
  eq : s.rData = s.rTail
  lo : rHead c s.blk.base ≤ s.rTail
  hi : s.rTail ≤ rHead c s.blk.base + buff c

theorem packet_spec (c : Cfg) (hW : 0 < c.W) (hsz : c.W ∣ c.sz) (s : Rd) (h : Good c s) (d a : List Nat) (ha : a.length ≤ addrSz) :
    ∃ s' a28, packet c s d a = some (s', (d.take (up c.W c.maxPkt), a28)) ∧ Good c s' ∧ a28.length = addrSz ∧ a28.take a.length = a := by
  obtain ⟨h1, h2, h3, h4, h5⟩ := h
  have hs : s.rTail - s.rData = 0 := by omega
  simp only [blkSize] at h2
  have hrh : rHead c s.blk.base = s.blk.base + c.sz + c.argc * c.W := rfl
  have hlen : ∀ (x : List Nat), (x.take (buff c)).length ≤ buff c := fun x => by simp; omega
  have hdv : c.W ∣ rHead c s.blk.base + buff c := by
    rw [hrh]
    exact Nat.dvd_add (Nat.dvd_add (Nat.dvd_add h1 hsz) ⟨c.argc, Nat.mul_comm _ _⟩) (up_dvd _ _)
  have hk : rd s.blk s.rData 0 = some [] := by
    rw [rd, if_pos (by constructor <;> omega)]; simp
  have hm : wr s.blk (rHead c s.blk.base) [] = some s.blk := wr_nil _ _ (by omega) (by omega)
  obtain ⟨b2, e2, f2, g2, r2, o2⟩ := wr_some s.blk (rHead c s.blk.base) (d.take (buff c)) (by omega) (by have := hlen d; omega)
  obtain ⟨b3, e3, f3, g3, r3, o3⟩ := wr_some b2 (rHead c s.blk.base + buff c) a (by omega) (by rw [f2, g2]; simp only [addrSz] at *; omega)
  obtain ⟨a28, e4, l4⟩ := rd_some b3 (rHead c s.blk.base + buff c) addrSz (by omega) (by rw [f3, f2, g3, g2]; omega)
  have hseen : rd b3 (rHead c s.blk.base) (d.take (buff c)).length = some (d.take (buff c)) := by
    rw [o3 _ _ (Or.inl (by have := hlen d; omega)), r2]
  refine ⟨{ blk := b3, rData := rHead c s.blk.base + (d.take (buff c)).length, rTail := rHead c s.blk.base + (d.take (buff c)).length }, a28, ?_, ?_, l4, ?_⟩
  · simp only [packet, hs, hk, hm, Option.bind_eq_bind, Option.bind_some, Nat.add_zero, Nat.sub_self, Nat.sub_zero, up_of_dvd _ _ hW hdv, e2, e3,
      Nat.add_sub_cancel_left, hseen, e4]
    rfl
  · have hb : b3.base = s.blk.base := by rw [f3, f2]
    refine ⟨by rw [hb]; exact h1, by rw [g3, g2]; exact h2, rfl, ?_, ?_⟩
    · rw [hb]; exact Nat.le_add_right _ _
    · rw [hb]; have := hlen d; dsimp only; omega
  · exact rd_prefix b3 _ _ _ _ _ ha r3 e4

theorem packets_spec (c : Cfg) (hW : 0 < c.W) (hsz : c.W ∣ c.sz) (ps : List (List Nat × List Nat)) : ∀ s, Good c s → (∀ p ∈ ps, p.2.length ≤ addrSz) →
    ∃ out, packets c s ps = some out ∧ out.length = ps.length ∧ ∀ (i : Nat) (d a : List Nat), ps[i]? = some (d, a) →
      ∃ a28, out[i]? = some (d.take (up c.W c.maxPkt), a28) ∧ a28.length = addrSz ∧ a28.take a.length = a := by
  induction ps with
  | nil => intro s _ _; exact ⟨[], rfl, rfl, fun i d a h => by simp at h⟩
  | cons p ps ih =>
    intro s hs hp
    obtain ⟨d, a⟩ := p
    obtain ⟨s', a28, e1, g1, l1, t1⟩ := packet_spec c hW hsz s hs d a (hp (d, a) (by simp))
    obtain ⟨out, e2, l2, t2⟩ := ih s' g1 (fun p h => hp p (by simp [h]))
    refine ⟨(d.take (up c.W c.maxPkt), a28) :: out, ?_, by simp [l2], ?_⟩
    · simp [packets, e1, e2]
    · intro i d' a' hi
      cases i with
      | zero =>
        simp only [List.getElem?_cons_zero, Option.some.injEq, Prod.mk.injEq] at hi
        obtain ⟨rfl, rfl⟩ := hi
        exact ⟨a28, by simp, l1, t1⟩
      | succ i =>
        simp only [List.getElem?_cons_succ] at hi ⊢
        exact t2 i d' a' hi

/-- **C223**, what holds: for all sizes, numbers of arguments and contents of the memory, and for all packets in any number whose sender's address fits, nothing outside the block is touched, every packet arrives in order,
cut at some size of at least `max_pkt_size` that is the same for all, together with the address of its own sender; so packets of up to `max_pkt_size` bytes arrive whole. -/
theorem C223_packets_partial (c : Cfg) (hW : 0 < c.W) (hsz : c.W ∣ c.sz) (b : Blk) (hal : c.W ∣ b.base) (hb : b.mem.length = blkSize c)
    (ps : List (List Nat × List Nat)) (hp : ∀ p ∈ ps, p.2.length ≤ addrSz) :
    ∃ m, c.maxPkt ≤ m ∧ m < c.maxPkt + c.W ∧ ∃ out, packets c (rd0 c b) ps = some out ∧ out.length = ps.length ∧
      ∀ (i : Nat) (d a : List Nat), ps[i]? = some (d, a) → ∃ a28, out[i]? = some (d.take m, a28) ∧ a28.length = 28 ∧ a28.take a.length = a ∧ (d.length ≤ c.maxPkt → d.take m = d) := by
  have hu := up_bounds c.W c.maxPkt hW
  obtain ⟨out, e, l, t⟩ := packets_spec c hW hsz ps (rd0 c b) ⟨hal, hb, rfl, Nat.le_refl _, Nat.le_add_right _ _⟩ hp
  refine ⟨_, hu.1, hu.2, out, e, l, fun i d a hi => ?_⟩
  obtain ⟨a28, h1, h2, h3⟩ := t i d a hi
  exact ⟨a28, h1, h2, h3, fun hd => List.take_of_length_le (by omega)⟩

/-- The memory of a descriptor with `max_pkt_size` 1 on a 64-bit system. -/
def ex1 : Cfg := { W := 8, sz := 16, argc := 0, maxPkt := 1 }
def exBlk : Blk := { base := 4096, mem := List.replicate 52 9 }

/-- **C223** fails for `data_f` callbacks that rely on `max_pkt_size` as the largest packet: 8 bytes arrive where 1 was asked for. -/
theorem C223_size_broken : ∃ out, packets ex1 (rd0 ex1 exBlk) [([1, 2, 3, 4, 5, 6, 7, 8], [2, 0, 80, 0, 127, 0, 0, 1])] = some out ∧
    out.map (fun x => x.1.length) = [8] ∧ ex1.maxPkt = 1 := by
  refine ⟨_, rfl, ?_, rfl⟩
  decide

/-- **C223** fails where the platform's call gives no address (a sender without a name, or a family it does not know, aosl_hal_socket.c:104-105): the packet comes with the address of the packet before. -/
theorem C223_stale_broken : ∃ x y, packets ex1 (rd0 ex1 exBlk) [([1], [2, 0, 80, 0, 127, 0, 0, 1]), ([5], [])] = some [x, y] ∧ y.1 = [5] ∧ y.2 = x.2 ∧ y.2.take 8 = [2, 0, 80, 0, 127, 0, 0, 1] := by
  refine ⟨([1], [2, 0, 80, 0, 127, 0, 0, 1] ++ List.replicate 20 9), ([5], [2, 0, 80, 0, 127, 0, 0, 1] ++ List.replicate 20 9), ?_⟩
  decide +kernel

/-- The hypotheses are met: three packets, one of them empty, with addresses of two families. -/
example : (packets { W := 8, sz := 200, argc := 3, maxPkt := 5 } (rd0 { W := 8, sz := 200, argc := 3, maxPkt := 5 } { base := 64, mem := List.replicate 260 7 })
    [([1, 2, 3], [2, 0, 80, 0, 127, 0, 0, 1]), ([], List.range 28), ([4, 5, 6, 7, 8], [2, 0, 81, 0])]).map (fun out => (out.map (·.1), (out.map (·.2))[1]?)) =
    some ([[1, 2, 3], [], [4, 5, 6, 7, 8]], some (List.range 28)) := by
  decide +kernel

/-! ## C224 -/

/-- What the system has to be asked for data kept with `k`, by the `write_f` of the descriptor: aosl_send's flags reach send and sendto, aosl_sendto's destination reaches sendto. -/
def wanted (wf : WF) (k : Kind) (bytes : List Nat) : Ask :=
  match wf, k with
  | .write, _ => ⟨bytes, none, none⟩
  | _, .write => ⟨bytes, none, none⟩
  | _, .send f => ⟨bytes, some f, none⟩
  | .send, .sendto f _ => ⟨bytes, some f, none⟩
  | .sendto, .sendto f a => ⟨bytes, some f, some a⟩

/-- Flags are four bytes, a destination is a whole `aosl_sk_addr_t`. -/
def Kind.ok : Kind → Prop
  | .write => True
  | .send f => f.length = 4
  | .sendto f a => f.length = 4 ∧ a.length = addrSz

/-- The calls, from the bytes that are left: each offers all of them and takes some. -/
def offers : List Nat → List Nat → List (List Nat)
  | _, [] => []
  | rest, k :: ks => rest :: if k < rest.length then offers (rest.drop k) ks else []

def keptIn (W : Nat) (b : Blk) (tail : Nat) : Kind → Prop
  | .write => True
  | .send f => rd b (up W tail) 4 = some f
  | .sendto f a => rd b (up W tail) 4 = some f ∧ rd b (up W tail + 4) 28 = some a

/-- The node still holds its data from `off` on, and what is kept with it. -/
structure NOk (W : Nat) (data : List Nat) (k : Kind) (n : Node) (off : Nat) : Prop where
  le : off ≤ data.length
  wd : n.wData = n.wTail - (data.length - off)
  ge : data.length ≤ n.wTail
  bytes : rd n.blk (n.wTail - data.length) data.length = some data
  extra : n.extra = extraSz k
  kept : keptIn W n.blk n.wTail k

theorem rd_drop (b : Blk) (a n o : Nat) (l : List Nat) (h : rd b a n = some l) (ho : o ≤ n) : rd b (a + o) (n - o) = some (l.drop o) := by
  simp only [rd] at *
  split at h
  · cases h
    rw [if_pos (by omega), List.drop_take]
    congr 2
    · rw [List.drop_drop]; congr 1; omega
  · cases h

theorem ask_spec (W : Nat) (wf : WF) (data : List Nat) (k : Kind) (n : Node) (off : Nat) (h : NOk W data k n off) :
    ask W wf n = some (wanted wf k (data.drop off)) := by
  obtain ⟨h1, h2, h3, h4, h5, h6⟩ := h
  have hl : n.wTail - n.wData = data.length - off := by omega
  have hb : rd n.blk n.wData (data.length - off) = some (data.drop off) := by
    have := rd_drop _ _ _ off _ h4 h1
    rw [show n.wTail - data.length + off = n.wData by omega] at this
    exact this
  have hp : n.wData + (data.length - off) = n.wTail := by omega
  cases wf <;> cases k <;> simp_all [ask, wanted, extraSz, keptIn]

theorem drain_spec (W : Nat) (wf : WF) (data : List Nat) (k : Kind) (ks : List Nat) : ∀ n off, NOk W data k n off →
    drain W wf n ks = some ((offers (data.drop off) ks).map (wanted wf k)) := by
  induction ks with
  | nil => intro n off _; rfl
  | cons t ks ih =>
    intro n off h
    have ha := ask_spec W wf data k n off h
    have hw : ∀ bs, (wanted wf k bs).bytes = bs := fun bs => by cases wf <;> cases k <;> rfl
    simp only [drain, ha, Option.bind_eq_bind, Option.bind_some, hw, List.length_drop, offers]
    have h' := h
    obtain ⟨h1, h2, h3, h4, h5, h6⟩ := h'
    by_cases hc : t < data.length - off
    · have hm : min t (data.length - off) = t := by omega
      have e := ih { n with wData := n.wData + t } (off + t) ⟨by omega, (show n.wData + t = _ by dsimp only; omega), h3, h4, h5, h6⟩
      rw [if_pos (by omega), if_pos hc, hm, e]
      simp [List.drop_drop, Nat.add_comm]
    · rw [if_neg (by omega), if_neg hc]
      simp

theorem mkNode_spec (W : Nat) (hW : 0 < W) (b : Blk) (hal : W ∣ b.base) (data : List Nat) (k : Kind) (hk : k.ok) (hb : b.mem.length = nodeSize W data.length k) :
    ∃ n, mkNode W b data k = some n ∧ NOk W data k n 0 := by
  have hh : W ∣ b.base + hdr W := Nat.dvd_add hal ⟨4, Nat.mul_comm _ _⟩
  have hu := up_bounds W data.length hW
  have hp : up W (b.base + hdr W + data.length) = b.base + hdr W + up W data.length := up_add W _ _ hW hh
  simp only [nodeSize] at hb
  obtain ⟨b1, e1, f1, g1, r1, o1⟩ := wr_some b (b.base + hdr W) data (by omega) (by omega)
  cases k with
  | write =>
    refine ⟨{ blk := b1, wData := b.base + hdr W, wTail := b.base + hdr W + data.length, extra := 0 }, by simp [mkNode, e1, extraSz], ?_⟩
    refine ⟨by omega, by dsimp only; omega, by dsimp only; omega, ?_, rfl, trivial⟩
    dsimp only; rw [Nat.add_sub_cancel]; exact r1
  | send f =>
    simp only [Kind.ok] at hk
    simp only [extraSz] at hb
    obtain ⟨b2, e2, f2, g2, r2, o2⟩ := wr_some b1 (b.base + hdr W + up W data.length) f (by omega) (by omega)
    refine ⟨{ blk := b2, wData := b.base + hdr W, wTail := b.base + hdr W + data.length, extra := 4 }, by simp [mkNode, e1, e2, hp, extraSz], ?_⟩
    refine ⟨by omega, by dsimp only; omega, by dsimp only; omega, ?_, rfl, ?_⟩
    · dsimp only; rw [Nat.add_sub_cancel, o2 _ _ (Or.inl (by omega))]; exact r1
    · simp only [keptIn]; rw [hp, ← hk]; exact r2
  | sendto f a =>
    simp only [Kind.ok, addrSz] at hk
    simp only [extraSz] at hb
    obtain ⟨hf, ha⟩ := hk
    obtain ⟨b2, e2, f2, g2, r2, o2⟩ := wr_some b1 (b.base + hdr W + up W data.length) f (by omega) (by omega)
    obtain ⟨b3, e3, f3, g3, r3, o3⟩ := wr_some b2 (b.base + hdr W + up W data.length + 4) a (by omega) (by omega)
    refine ⟨{ blk := b3, wData := b.base + hdr W, wTail := b.base + hdr W + data.length, extra := 32 }, by simp [mkNode, e1, e2, e3, hp, extraSz], ?_⟩
    refine ⟨by omega, by dsimp only; omega, by dsimp only; omega, ?_, rfl, ?_, ?_⟩
    · dsimp only; rw [Nat.add_sub_cancel, o3 _ _ (Or.inl (by omega)), o2 _ _ (Or.inl (by omega))]; exact r1
    · dsimp only; rw [hp, o3 _ _ (Or.inl (by omega)), ← hf]; exact r2
    · dsimp only; rw [hp]; rw [ha] at r3; exact r3

/-- **C224**: for all data, all that is kept with it, every kind of descriptor, all contents of the fresh memory and every way in which the system takes the data in pieces: no access leaves the block, every call offers exactly the bytes
that are left, with the flags and the destination that were given. -/
theorem C224_kept (W : Nat) (hW : 0 < W) (b : Blk) (hal : W ∣ b.base) (data : List Nat) (k : Kind) (hk : k.ok) (hb : b.mem.length = nodeSize W data.length k) (wf : WF) (took : List Nat) :
    ∃ n, mkNode W b data k = some n ∧ drain W wf n took = some ((offers data took).map (wanted wf k)) := by
  obtain ⟨n, h1, h2⟩ := mkNode_spec W hW b hal data k hk hb
  exact ⟨n, h1, by simpa using drain_spec W wf data k took n 0 h2⟩

/-- The hypotheses are met, and something is asked: five bytes to a destination, three of them taken first. -/
example : ∃ n, mkNode 8 { base := 32, mem := List.replicate 72 9 } [1, 2, 3, 4, 5] (.sendto [0, 64, 0, 0] (List.range 28)) = some n ∧
    drain 8 .sendto n [3, 2] = some [⟨[1, 2, 3, 4, 5], some [0, 64, 0, 0], some (List.range 28)⟩, ⟨[4, 5], some [0, 64, 0, 0], some (List.range 28)⟩] := by
  obtain ⟨n, h1, h2⟩ := C224_kept 8 (by omega) { base := 32, mem := List.replicate 72 9 } (by decide) [1, 2, 3, 4, 5] (.sendto [0, 64, 0, 0] (List.range 28)) (by simp [Kind.ok, addrSz])
    (by simp [nodeSize, hdr, up, extraSz]) .sendto [3, 2]
  exact ⟨n, h1, by rw [h2]; simp [offers, wanted]⟩

end Verif.PktMem
