import Verif.IoWrite

/-! # Writing to a registered fd: order, no loss, bounds (C50, C51, C102, C103, C104) -/

namespace Verif.IoWrite

/-! ## Specification -/

/-- A byte with the call parameters it must be written with. -/
abbrev TB := Tag × Byte

def tagged (t : Tag) (bs : List Byte) : List TB := bs.map (fun b => (t, b))

/-- Every byte that reached the fd, in order. -/
def onWire (f : WFd) : List TB := f.wire.flatMap (fun c => tagged c.2.1 c.2.2)

/-- Every byte accepted and not yet written, in order. -/
def pending (f : WFd) : List TB := f.queue.flatMap (fun n => tagged n.tag (n.data.drop n.off))

/-- The bytes of the writes of a history that reported success: those whose result is the whole length. -/
def accepted : List (Op × Int) → List TB
  | [] => []
  | (.write t b _ _, r) :: tr => (if r = (b.length : Int) then tagged t b else []) ++ accepted tr
  | _ :: tr => accepted tr

/-- No allocation fails in the history. -/
def MemOk (ops : List Op) : Prop := ∀ op ∈ ops, ∀ t b r m, op = .write t b r m → m = true

/-! ## Invariant -/

/-- Well-formed write side: every node has its read position inside, `total_len` is the sum of the node lengths
and below the limit. -/
structure Inv (f : WFd) : Prop where
  off : ∀ n ∈ f.queue, n.off ≤ n.data.length
  total : f.total = (f.queue.map (fun n => n.data.length)).sum
  bound : f.total ≤ wbufMax

theorem inv_init (nr : Bool) : Inv (init nr) := ⟨by simp [init], by simp [init], by simp [init]⟩

theorem tagged_append (t : Tag) (a b : List Byte) : tagged t (a ++ b) = tagged t a ++ tagged t b := by simp [tagged]

theorem tagged_length (t : Tag) (a : List Byte) : (tagged t a).length = a.length := by simp [tagged]

/-- The loop sends exactly a prefix of what was pending. -/
theorem drain_bytes (o : Nat → WRes) (i : Nat) (q : List Node) (hoff : ∀ n ∈ q, n.off ≤ n.data.length) :
    (drain o i q).sent.flatMap (fun c => tagged c.2.1 c.2.2) ++ (drain o i q).left.flatMap (fun n => tagged n.tag (n.data.drop n.off))
      = q.flatMap (fun n => tagged n.tag (n.data.drop n.off)) := by
  induction q generalizing i with
  | nil => simp [drain]
  | cons n ns ih =>
    simp only [drain]
    cases h : o i with
    | again => simp
    | fail e => simp
    | took m =>
      have hn := hoff n (by simp)
      simp only
      by_cases hlt : n.off + min m (n.data.length - n.off) < n.data.length
      · rw [if_pos hlt]
        simp only [List.flatMap_cons, List.flatMap_nil, List.append_nil]
        rw [← List.append_assoc, ← tagged_append]
        rw [← List.drop_drop, List.take_append_drop]
      · rw [if_neg hlt]
        have hk : min m (n.data.length - n.off) = n.data.length - n.off := by omega
        simp only [List.flatMap_cons, hk, List.append_assoc]
        rw [ih (i + 1) (fun x hx => hoff x (by simp [hx]))]
        congr 2
        apply List.take_of_length_le
        simp

theorem drain_freed (o : Nat → WRes) (i : Nat) (q : List Node) :
    (drain o i q).freed + ((drain o i q).left.map (fun n => n.data.length)).sum = (q.map (fun n => n.data.length)).sum := by
  induction q generalizing i with
  | nil => simp [drain]
  | cons n ns ih =>
    simp only [drain]
    cases h : o i with
    | again => simp
    | fail e => simp
    | took m =>
      simp only
      split
      · simp
      · have := ih (i + 1)
        simp only [List.map_cons, List.sum_cons]
        omega

theorem drain_off (o : Nat → WRes) (i : Nat) (q : List Node) (hoff : ∀ n ∈ q, n.off ≤ n.data.length) :
    ∀ n ∈ (drain o i q).left, n.off ≤ n.data.length := by
  induction q generalizing i with
  | nil => simp [drain]
  | cons n ns ih =>
    simp only [drain]
    cases h : o i with
    | again => exact hoff
    | fail e => exact hoff
    | took m =>
      simp only
      split
      · rename_i hlt
        intro x hx
        rcases List.mem_cons.1 hx with h | h
        · subst h; simp only; omega
        · exact hoff x (by simp [h])
      · exact ih (i + 1) (fun x hx => hoff x (by simp [hx]))

theorem eventAndClose_eq (f : WFd) (e : Int) :
    (eventAndClose f e).queue = f.queue ∧ (eventAndClose f e).total = f.total ∧ (eventAndClose f e).wire = f.wire ∧
      (eventAndClose f e).notReady = f.notReady := by
  simp only [eventAndClose]; split <;> simp

/-- The effect of a writability event on the queue and the wire, whatever the way the loop ended. -/
theorem writable_eq (f : WFd) (o : Nat → WRes) (h : f.isOpen = true) :
    (writable f o).queue = (drain o 0 f.queue).left ∧ (writable f o).total = f.total - (drain o 0 f.queue).freed ∧
      (writable f o).wire = f.wire ++ (drain o 0 f.queue).sent ∧ (writable f o).notReady = false := by
  simp only [writable, if_pos h]
  cases (drain o 0 f.queue).stop with
  | empty => simp
  | blocked => simp
  | failed e => simp only [eventAndClose_eq]; simp

theorem writable_closed (f : WFd) (o : Nat → WRes) (h : ¬ f.isOpen = true) : writable f o = f := by
  simp only [writable, if_neg h]

theorem inv_writable (f : WFd) (o : Nat → WRes) (hf : Inv f) : Inv (writable f o) := by
  by_cases h : f.isOpen = true
  · obtain ⟨h1, h2, -, -⟩ := writable_eq f o h
    have hfr := drain_freed o 0 f.queue
    refine ⟨?_, ?_, ?_⟩
    · rw [h1]; exact drain_off o 0 f.queue hf.off
    · rw [h1, h2, hf.total]; omega
    · have := hf.bound; rw [h2]; omega
  · rw [writable_closed f o h]; exact hf

theorem bytes_writable (f : WFd) (o : Nat → WRes) (hf : Inv f) :
    onWire (writable f o) ++ pending (writable f o) = onWire f ++ pending f := by
  by_cases h : f.isOpen = true
  · obtain ⟨h1, -, h3, -⟩ := writable_eq f o h
    simp only [onWire, pending, h1, h3, List.flatMap_append, List.append_assoc]
    rw [drain_bytes o 0 f.queue hf.off]
  · rw [writable_closed f o h]

theorem enqueue_inv (f : WFd) (t : Tag) (rest : List Byte) (len : Nat) (m : Bool) (hf : Inv f) (hsp : rest.length ≤ space f) :
    Inv (enqueue f t rest len m).1 := by
  simp only [enqueue]
  split
  · refine ⟨?_, ?_, ?_⟩
    · intro n hn
      rcases List.mem_append.1 hn with h | h
      · exact hf.off n h
      · simp at h; subst h; simp
    · simp [hf.total]
    · have := hf.bound
      simp only [space] at hsp
      simp only
      split at hsp <;> omega
  · exact hf

theorem doWrite_inv (f : WFd) (t : Tag) (b : List Byte) (r : WRes) (m : Bool) (hf : Inv f) : Inv (doWrite f t b r m).1 := by
  simp only [doWrite]
  split
  · exact hf
  split
  · exact hf
  rename_i h1 h2
  split
  · exact enqueue_inv f t b _ m hf (by omega)
  cases r with
  | again => exact hf
  | fail e => exact hf
  | took n =>
    simp only
    split
    · exact hf
    have hf' : Inv { f with wire := f.wire ++ [(Chan.hal, t, b.take (min n b.length))] } := ⟨hf.off, hf.total, hf.bound⟩
    split
    · refine enqueue_inv _ t _ _ m hf' ?_
      simp only [space, List.length_drop] at h2 ⊢
      omega
    · exact hf'

theorem step_inv (f : WFd) (op : Op) (hf : Inv f) : Inv (step f op).1 := by
  cases op with
  | write t b r m =>
    simp only [step, write]
    split
    · exact doWrite_inv f t b r m hf
    · exact hf
  | writable o => exact inv_writable f o hf
  | timeout =>
    simp only [step, timeout]
    split
    · obtain ⟨h1, h2, -, -⟩ := eventAndClose_eq f (-eTIMEDOUT)
      exact ⟨by rw [h1]; exact hf.off, by rw [h1, h2]; exact hf.total, by rw [h2]; exact hf.bound⟩
    · exact hf
  | close => exact ⟨hf.off, hf.total, hf.bound⟩

theorem run_inv (f : WFd) (ops : List Op) (hf : Inv f) : Inv (run f ops).1 := by
  induction ops generalizing f with
  | nil => exact hf
  | cons op ops ih => exact ih _ (step_inv f op hf)

/-- What one write contributes to the stream: nothing, everything, or (only when it reports "out of memory") a part that was
written before the rest could not be queued. -/
inductive Contrib : Op → Int → List TB → Prop
  | whole (t b r m) : Contrib (.write t b r m) (b.length : Int) (tagged t b)
  | refused (t b r m e) : e ≠ (b.length : Int) → Contrib (.write t b r m) e []
  | torn (t) (b : List Byte) (r) (k) : 0 < k → k < b.length → Contrib (.write t b r false) (-eNOMEM) (tagged t (b.take k))
  | other (op e) : (∀ t b r m, op ≠ .write t b r m) → Contrib op e []

theorem enqueue_bytes (f : WFd) (t : Tag) (rest : List Byte) (len : Nat) :
    onWire (enqueue f t rest len true).1 ++ pending (enqueue f t rest len true).1 = (onWire f ++ pending f) ++ tagged t rest := by
  simp [enqueue, onWire, pending]

theorem neg_ne_len (e : Int) (n : Nat) (h : 0 < e) : -e ≠ (n : Int) := by omega

theorem doWrite_contrib (f : WFd) (t : Tag) (b : List Byte) (r : WRes) (m : Bool) (_hf : Inv f) :
    ∃ c, Contrib (.write t b r m) (doWrite f t b r m).2 c ∧
      onWire (doWrite f t b r m).1 ++ pending (doWrite f t b r m).1 = (onWire f ++ pending f) ++ c := by
  simp only [doWrite]
  split
  · exact ⟨[], .refused _ _ _ _ _ (neg_ne_len _ _ (by decide)), by simp⟩
  split
  · exact ⟨[], .refused _ _ _ _ _ (neg_ne_len _ _ (by decide)), by simp⟩
  split
  · cases m with
    | true => exact ⟨tagged t b, .whole _ _ _ _, enqueue_bytes f t b _⟩
    | false => exact ⟨[], .refused _ _ _ _ _ (neg_ne_len _ _ (by decide)), by simp [enqueue]⟩
  rename_i h3
  have hq : f.queue = [] := by
    cases hq : f.queue with
    | nil => rfl
    | cons a l => exact absurd (Or.inl (by simp [hq])) h3
  have hp : pending f = [] := by simp [pending, hq]
  cases r with
  | again => exact ⟨[], .refused _ _ _ _ _ (neg_ne_len _ _ (by decide)), by simp⟩
  | fail e =>
    simp only
    by_cases he : -(e : Int) = (b.length : Int)
    · have hb : b = [] := by
        apply List.eq_nil_of_length_eq_zero; omega
      refine ⟨[], ?_, by simp⟩
      rw [he]
      have := Contrib.whole t b (.fail e) m
      subst hb
      exact this
    · exact ⟨[], .refused _ _ _ _ _ he, by simp⟩
  | took n =>
    simp only
    split
    · rename_i h4
      by_cases hb : b = []
      · subst hb
        exact ⟨[], Contrib.whole t [] (.took n) m, by simp⟩
      · refine ⟨[], .refused _ _ _ _ _ ?_, by simp⟩
        have : b.length ≠ 0 := fun h => hb (List.eq_nil_of_length_eq_zero h)
        omega
    rename_i h4
    split
    · rename_i h5
      cases m with
      | true =>
        refine ⟨tagged t b, .whole _ _ _ _, ?_⟩
        rw [enqueue_bytes]
        simp only [onWire, pending, hq, List.flatMap_append, List.flatMap_cons, List.flatMap_nil, List.append_nil, List.append_assoc]
        rw [← tagged_append, List.take_append_drop]
      | false =>
        refine ⟨tagged t (b.take (min n b.length)), .torn _ _ _ _ (by omega) h5, ?_⟩
        simp [enqueue, onWire, pending, hq]
    · rename_i h5
      refine ⟨tagged t b, .whole _ _ _ _, ?_⟩
      have : b.take (min n b.length) = b := List.take_of_length_le (by omega)
      simp [onWire, pending, hq, this]

/-- One step appends its contribution to the stream. -/
theorem step_contrib (f : WFd) (op : Op) (hf : Inv f) :
    ∃ c, Contrib op (step f op).2 c ∧ onWire (step f op).1 ++ pending (step f op).1 = (onWire f ++ pending f) ++ c := by
  cases op with
  | write t b r m =>
    simp only [step, write]
    split
    · exact doWrite_contrib f t b r m hf
    · exact ⟨[], .refused _ _ _ _ _ (neg_ne_len _ _ (by decide)), by simp⟩
  | writable o => exact ⟨[], .other _ _ (by simp), by simpa [step] using bytes_writable f o hf⟩
  | timeout =>
    refine ⟨[], .other _ _ (by simp), ?_⟩
    simp only [step, timeout, List.append_nil]
    split
    · obtain ⟨h1, -, h3, -⟩ := eventAndClose_eq f (-eTIMEDOUT)
      simp [onWire, pending, h1, h3]
    · rfl
  | close => exact ⟨[], .other _ _ (by simp), by simp [step, onWire, pending]⟩

/-- The contributions of a whole history. -/
inductive Contribs : List (Op × Int) → List TB → Prop
  | nil : Contribs [] []
  | cons (op r c tr cs) : Contrib op r c → Contribs tr cs → Contribs ((op, r) :: tr) (c ++ cs)

theorem run_contribs (f : WFd) (ops : List Op) (hf : Inv f) :
    ∃ cs, Contribs (run f ops).2 cs ∧ onWire (run f ops).1 ++ pending (run f ops).1 = (onWire f ++ pending f) ++ cs := by
  induction ops generalizing f with
  | nil => exact ⟨[], .nil, by simp [run]⟩
  | cons op ops ih =>
    obtain ⟨c, hc, he⟩ := step_contrib f op hf
    obtain ⟨cs, hcs, hes⟩ := ih _ (step_inv f op hf)
    refine ⟨c ++ cs, .cons _ _ _ _ _ hc hcs, ?_⟩
    simp only [run]
    rw [hes, he, List.append_assoc]

theorem contribs_accepted (f : WFd) (ops : List Op) (cs : List TB) (hm : MemOk ops) (h : Contribs (run f ops).2 cs) :
    cs = accepted (run f ops).2 := by
  induction ops generalizing f cs with
  | nil => simp only [run] at h ⊢; cases h; rfl
  | cons op ops ih =>
    simp only [run] at h ⊢
    cases h with
    | cons _ _ c _ cs' hc hcs =>
      have h2 := ih _ cs' (fun op' ho => hm op' (by simp [ho])) hcs
      rw [h2]
      clear h2 hcs ih
      generalize (step f op).2 = rr at hc ⊢
      cases hc with
      | whole t b r m => simp [accepted]
      | refused t b r m e hne => simp [accepted, hne]
      | torn t b r k hk hl => exact absurd (hm _ (by simp) t b r false rfl) (by simp)
      | other _ _ hno =>
        cases op with
        | write t b r m => exact absurd rfl (hno t b r m)
        | writable o => simp [accepted]
        | timeout => simp [accepted]
        | close => simp [accepted]

/-! ## C50 -/

/-- **C50.**  For every history of writes, sends, writability events with arbitrary partial results, time-outs and
closes in which no allocation fails: the bytes that reached the fd, followed by the bytes still queued, are exactly the
concatenation of the writes that reported success, each byte with the flags and the destination of the call it came from. -/
theorem C50_stream_partial (nr : Bool) (ops : List Op) (hm : MemOk ops) :
    onWire (run (init nr) ops).1 ++ pending (run (init nr) ops).1 = accepted (run (init nr) ops).2 := by
  obtain ⟨cs, hcs, he⟩ := run_contribs (init nr) ops (inv_init nr)
  rw [he, contribs_accepted (init nr) ops cs hm hcs]
  simp [onWire, pending, init]

/-- **C50**, with allocation failures: only a write that reports "out of memory" can leave part of its bytes in the stream,
and then a strict, non-empty prefix of them; every other write contributes all or nothing. -/
theorem C50_oom_partial (nr : Bool) (ops : List Op) :
    ∃ cs, Contribs (run (init nr) ops).2 cs ∧ onWire (run (init nr) ops).1 ++ pending (run (init nr) ops).1 = cs := by
  obtain ⟨cs, hcs, he⟩ := run_contribs (init nr) ops (inv_init nr)
  exact ⟨cs, hcs, by rw [he]; simp [onWire, pending, init]⟩

/-- C50 fails when an allocation fails: a write reports "out of memory", yet two of its three bytes reached the fd. -/
theorem C50_oom_torn :
    ∃ ops : List Op, (run (init false) ops).2.map (·.2) = [-eNOMEM] ∧ accepted (run (init false) ops).2 = [] ∧
      onWire (run (init false) ops).1 = [(.write, 1), (.write, 2)] :=
  ⟨[.write .write [1, 2, 3] (.took 2) false], by decide +kernel, by decide +kernel, by decide +kernel⟩

/-- Nothing is ever taken back from the wire, so the order on the fd is final. -/
theorem C50_wire_grows (f : WFd) (op : Op) : onWire f <+: onWire (step f op).1 := by
  cases op with
  | write t b r m =>
    simp only [step, write]
    split
    · simp only [doWrite]
      split
      · exact List.prefix_refl _
      split
      · exact List.prefix_refl _
      split
      · simp only [enqueue]; split <;> exact List.prefix_refl _
      cases r with
      | again => exact List.prefix_refl _
      | fail e => exact List.prefix_refl _
      | took n =>
        simp only
        split
        · exact List.prefix_refl _
        split
        · simp only [enqueue]; split <;> simp [onWire]
        · simp [onWire]
    · exact List.prefix_refl _
  | writable o =>
    simp only [step]
    by_cases h : f.isOpen = true
    · simp [onWire, (writable_eq f o h).2.2.1]
    · rw [writable_closed f o h]; exact List.prefix_refl _
  | timeout =>
    simp only [step, timeout]
    split
    · simp [onWire, (eventAndClose_eq f (-eTIMEDOUT)).2.2.1]
    · exact List.prefix_refl _
  | close => simp [step, onWire]

theorem drain_all (o : Nat → WRes) (i : Nat) (q : List Node) (hall : ∀ j, ∃ m, o j = .took m ∧ wbufMax ≤ m)
    (hoff : ∀ n ∈ q, n.off ≤ n.data.length) (hlen : ∀ n ∈ q, n.data.length ≤ wbufMax) :
    (drain o i q).left = [] ∧ (drain o i q).stop = .empty := by
  induction q generalizing i with
  | nil => simp [drain]
  | cons n ns ih =>
    obtain ⟨m, hm, hmax⟩ := hall i
    have h1 := hlen n (by simp)
    have h2 := hoff n (by simp)
    have hlt : ¬ (n.off + min m (n.data.length - n.off) < n.data.length) := by omega
    simp only [drain, hm, if_neg hlt]
    exact ih (i + 1) (fun x hx => hoff x (by simp [hx])) (fun x hx => hlen x (by simp [hx]))

theorem inv_node_le (f : WFd) (hf : Inv f) : ∀ n ∈ f.queue, n.data.length ≤ wbufMax := by
  intro n hn
  have h1 := hf.bound
  have h2 := hf.total
  have h3 : n.data.length ≤ (f.queue.map (fun n => n.data.length)).sum := by
    clear h1 h2 hf
    revert hn
    generalize f.queue = q
    intro hn
    induction q with
    | nil => simp at hn
    | cons a l ih =>
      rcases List.mem_cons.1 hn with h | h
      · subst h; simp
      · have := ih h; simp only [List.map_cons, List.sum_cons]; omega
  omega

/-- A writability event on which the fd takes everything empties the queue and is announced to the event callback. -/
theorem C50_flush (nr : Bool) (ops : List Op) (o : Nat → WRes) (hopen : (run (init nr) ops).1.isOpen = true)
    (hall : ∀ j, ∃ m, o j = .took m ∧ wbufMax ≤ m) :
    pending (writable (run (init nr) ops).1 o) = [] ∧
      (writable (run (init nr) ops).1 o).events = (run (init nr) ops).1.events ++ [.ready] := by
  have hf := run_inv (init nr) ops (inv_init nr)
  obtain ⟨h1, h2⟩ := drain_all o 0 _ hall hf.off (inv_node_le _ hf)
  refine ⟨?_, ?_⟩
  · simp [pending, (writable_eq _ o hopen).1, h1]
  · simp only [writable, if_pos hopen, h2]

/-- The amount of work left: bytes and nodes. -/
def work (q : List Node) : Nat := (q.map (fun n => n.data.length - n.off + 1)).sum

theorem drain_work_le (o : Nat → WRes) (i : Nat) (q : List Node) : work (drain o i q).left ≤ work q := by
  induction q generalizing i with
  | nil => simp [drain]
  | cons n ns ih =>
    simp only [drain]
    cases h : o i with
    | again => simp
    | fail e => simp
    | took m =>
      simp only
      split
      · simp only [work, List.map_cons, List.sum_cons]; omega
      · have := ih (i + 1); simp only [work, List.map_cons, List.sum_cons] at this ⊢; omega

theorem drain_progress (o : Nat → WRes) (q : List Node) (hq : q ≠ []) (ho : ∃ m, o 0 = .took m ∧ 0 < m) :
    work (drain o 0 q).left < work q := by
  obtain ⟨m, hm, hpos⟩ := ho
  cases q with
  | nil => exact absurd rfl hq
  | cons n ns =>
    simp only [drain, hm]
    split
    · simp only [work, List.map_cons, List.sum_cons]; omega
    · have := drain_work_le o (0 + 1) ns
      simp only [work, List.map_cons, List.sum_cons] at this ⊢; omega

/-- A sequence of writability events. -/
def events : WFd → List (Nat → WRes) → WFd
  | f, [] => f
  | f, o :: os => events (writable f o) os

/-- No low-level failure in an event. -/
def NoFail (o : Nat → WRes) : Prop := ∀ i e, o i ≠ .fail e

theorem drain_nofail (o : Nat → WRes) (i : Nat) (q : List Node) (ho : NoFail o) (e : Nat) : (drain o i q).stop ≠ .failed e := by
  induction q generalizing i with
  | nil => simp [drain]
  | cons n ns ih =>
    simp only [drain]
    cases h : o i with
    | again => simp
    | fail e => exact absurd h (ho i e)
    | took m =>
      simp only
      split
      · simp
      · exact ih (i + 1)

theorem writable_open (f : WFd) (o : Nat → WRes) (hopen : f.isOpen = true) (ho : NoFail o) : (writable f o).isOpen = true := by
  simp only [writable, if_pos hopen]
  cases h : (drain o 0 f.queue).stop with
  | empty => simp [hopen]
  | blocked => simp [hopen]
  | failed e => exact absurd h (drain_nofail o 0 _ ho e)

theorem events_work (os : List (Nat → WRes)) (f : WFd) (hopen : f.isOpen = true)
    (hos : ∀ o ∈ os, NoFail o ∧ ∃ m, o 0 = .took m ∧ 0 < m) (hlen : work f.queue ≤ os.length) : (events f os).queue = [] := by
  induction os generalizing f with
  | nil =>
    simp only [events]
    cases hq : f.queue with
    | nil => rfl
    | cons n ns => simp [hq, work] at hlen
  | cons o os ih =>
    obtain ⟨h1, h2⟩ := hos o (by simp)
    have hw := writable_eq f o hopen
    apply ih _ (writable_open f o hopen h1) (fun o' h => hos o' (by simp [h]))
    rw [hw.1]
    by_cases hq : f.queue = []
    · simp [hq, drain, work]
    · have := drain_progress o f.queue hq h2
      simp only [List.length_cons] at hlen
      omega

/-- Everything accepted reaches the fd: if in each writability event the fd takes at least one byte and does not fail, then after
(pending bytes + queued writes) such events nothing is pending, and all accepted bytes are on the wire, in order. -/
theorem C50_drains (nr : Bool) (ops : List Op) (os : List (Nat → WRes)) (hm : MemOk ops)
    (hopen : (run (init nr) ops).1.isOpen = true) (hos : ∀ o ∈ os, NoFail o ∧ ∃ m, o 0 = .took m ∧ 0 < m)
    (hlen : (pending (run (init nr) ops).1).length + (run (init nr) ops).1.queue.length ≤ os.length) :
    onWire (events (run (init nr) ops).1 os) = accepted (run (init nr) ops).2 := by
  have hf := run_inv (init nr) ops (inv_init nr)
  have hw : work (run (init nr) ops).1.queue = (pending (run (init nr) ops).1).length + (run (init nr) ops).1.queue.length := by
    simp only [work, pending]
    induction (run (init nr) ops).1.queue with
    | nil => simp
    | cons n ns ih => simp only [List.map_cons, List.sum_cons, List.flatMap_cons, List.length_append, List.length_cons, tagged_length,
        List.length_drop, ih]; omega
  have hq := events_work os _ hopen hos (by omega)
  have key : ∀ (os : List (Nat → WRes)) (f : WFd), Inv f → onWire (events f os) ++ pending (events f os) = onWire f ++ pending f := by
    intro os
    induction os with
    | nil => intro f _; rfl
    | cons o os ih => intro f hf; simp only [events]; rw [ih _ (inv_writable f o hf), bytes_writable f o hf]
  have h := key os _ hf
  rw [C50_stream_partial nr ops hm] at h
  rw [← h]
  simp [pending, hq]

theorem space_sub (f : WFd) : space f = wbufMax - f.total := by
  simp only [space]; split <;> omega

/-! ## C51 -/

/-- **C51**, the bound: in every history the queued bytes never exceed 128 KiB. -/
theorem C51_bound (nr : Bool) (ops : List Op) : (pending (run (init nr) ops).1).length ≤ 128 * 1024 := by
  have hf := run_inv (init nr) ops (inv_init nr)
  have h : (pending (run (init nr) ops).1).length ≤ ((run (init nr) ops).1.queue.map (fun n => n.data.length)).sum := by
    simp only [pending]
    induction (run (init nr) ops).1.queue with
    | nil => simp
    | cons n ns ih => simp only [List.map_cons, List.sum_cons, List.flatMap_cons, List.length_append, tagged_length, List.length_drop]; omega
  have h1 := hf.total
  have h2 := hf.bound
  simp only [wbufMax] at h2
  omega

/-- The bytes a queue holds, counting a partially written node in full, as the code does. -/
def held (f : WFd) : Nat := (f.queue.map (fun n => n.data.length)).sum

/-- **C51**, refusals: on a registered fd, a write over the limit is refused with "message too long", one over the remaining space with
"try again"; nothing is queued or written. -/
theorem C51_refuse (nr : Bool) (ops : List Op) (t : Tag) (b : List Byte) (r : WRes) (m : Bool) (hopen : (run (init nr) ops).1.isOpen = true) :
    (128 * 1024 < b.length → step (run (init nr) ops).1 (.write t b r m) = ((run (init nr) ops).1, -eMSGSIZE)) ∧
    (b.length ≤ 128 * 1024 → 128 * 1024 < held (run (init nr) ops).1 + b.length →
      step (run (init nr) ops).1 (.write t b r m) = ((run (init nr) ops).1, -eAGAIN)) := by
  have hf := run_inv (init nr) ops (inv_init nr)
  have h1 := hf.total
  have h2 := hf.bound
  simp only [wbufMax] at h2
  refine ⟨fun h => ?_, fun h h' => ?_⟩
  · simp only [step, write, if_pos hopen, doWrite]
    rw [if_pos (by simp only [wbufMax]; omega)]
  · simp only [step, write, if_pos hopen, doWrite]
    rw [if_neg (by simp only [wbufMax]; omega), if_pos]
    rw [space_sub]
    simp only [wbufMax, held] at h' ⊢
    omega

/-- **C51**, the converse: a write refused with "message too long" is over the limit, and one whose bytes would fit, on an fd that already
has data queued or is not ready, is accepted. -/
theorem C51_accept (nr : Bool) (ops : List Op) (t : Tag) (b : List Byte) (r : WRes) (hopen : (run (init nr) ops).1.isOpen = true)
    (hb : held (run (init nr) ops).1 + b.length ≤ 128 * 1024)
    (hq : (run (init nr) ops).1.queue ≠ [] ∨ (run (init nr) ops).1.notReady = true) :
    (step (run (init nr) ops).1 (.write t b r true)).2 = b.length ∧
      pending (step (run (init nr) ops).1 (.write t b r true)).1 = pending (run (init nr) ops).1 ++ tagged t b := by
  have hf := run_inv (init nr) ops (inv_init nr)
  have h1 := hf.total
  simp only [step, write, if_pos hopen, doWrite]
  simp only [held] at hb
  rw [if_neg (by simp only [wbufMax]; omega), if_neg (by rw [space_sub]; simp only [wbufMax]; omega), if_pos hq]
  simp [enqueue, pending]

/-- A 128 KiB message of which all but the last byte were written. -/
def consOps : List Op := [.write .write (List.replicate wbufMax 0) .again true, .writable (fun _ => .took (wbufMax - 1))]

theorem cons_aux (d : List Byte) (hd : d.length = wbufMax) :
    (run (init true) [.write .write d .again true, .writable (fun _ => .took (wbufMax - 1))]).1 =
      ⟨[⟨.write, d, wbufMax - 1⟩], wbufMax, false, true, [(.writeF, .write, (d.drop 0).take (wbufMax - 1))], []⟩ := by
  have hn : 0 < wbufMax := by decide
  have h1 : step (init true) (.write .write d .again true) = (⟨[⟨.write, d, 0⟩], wbufMax, true, true, [], []⟩, (wbufMax : Int)) := by
    simp only [step, write, init, if_true, doWrite]
    rw [if_neg (by omega), if_neg (by rw [space_sub]; simp only; omega), if_pos (Or.inr trivial)]
    simp [enqueue, hd]
  have h2 : min (wbufMax - 1) (d.length - 0) = wbufMax - 1 := by omega
  have h3 : drain (fun _ => .took (wbufMax - 1)) 0 [⟨.write, d, 0⟩] =
      ⟨[(.writeF, .write, (d.drop 0).take (wbufMax - 1))], [⟨.write, d, wbufMax - 1⟩], 0, .blocked⟩ := by
    simp only [drain, h2]
    rw [if_pos (by omega)]
    simp
  simp only [run, h1]
  simp only [step, writable, if_true, h3]
  simp

/-- A write is refused with "try again" by the queue limit although the queued bytes and it would fit together: the written part of the
head of the queue still counts. -/
theorem C51_conservative : ∃ ops : List Op, (run (init true) ops).1.isOpen = true ∧ (pending (run (init true) ops).1).length = 1 ∧
    step (run (init true) ops).1 (.write .write [0] (.took 1) true) = ((run (init true) ops).1, -eAGAIN) := by
  have hd : (List.replicate wbufMax (0 : Byte)).length = wbufMax := List.length_replicate
  refine ⟨consOps, ?_⟩
  rw [consOps, cons_aux _ hd]
  generalize List.replicate wbufMax (0 : Byte) = d at hd
  have hn : 1 < wbufMax := by decide
  refine ⟨rfl, ?_, ?_⟩
  · simp only [pending, List.flatMap_cons, List.flatMap_nil, List.append_nil, tagged_length, List.length_drop, hd]
    omega
  · simp only [step, write, if_true, doWrite, List.length_cons, List.length_nil]
    rw [if_neg (by omega), if_pos (by rw [space_sub]; simp only; omega)]

/-! ## C102: the write function given at registration -/

/-- **C102** fails: a write on an fd with its own write function goes straight to the HAL, not through that function. -/
theorem C102_bypass : ∃ ops : List Op, (run (init false) ops).2.map (·.2) = [3] ∧ (run (init false) ops).1.wire = [(.hal, .write, [1, 2, 3])] :=
  ⟨[.write .write [1, 2, 3] (.took 3) true], by decide +kernel, by decide +kernel⟩

/-- **C102**, what holds: everything that was queued goes through the registered function, only the first
attempt of a write on an empty queue does not. -/
theorem C102_queued_partial (f : WFd) (o : Nat → WRes) : ∃ ws, (writable f o).wire = f.wire ++ ws ∧ ∀ c ∈ ws, c.1 = Chan.writeF := by
  by_cases h : f.isOpen = true
  · refine ⟨_, (writable_eq f o h).2.2.1, ?_⟩
    have key : ∀ (q : List Node) (i : Nat), ∀ c ∈ (drain o i q).sent, c.1 = Chan.writeF := by
      intro q
      induction q with
      | nil => simp [drain]
      | cons n ns ih =>
        intro i
        simp only [drain]
        cases o i with
        | again => simp
        | fail e => simp
        | took m =>
          simp only
          split
          · simp
          · intro c hc
            rcases List.mem_cons.1 hc with h | h
            · subst h; rfl
            · exact ih (i + 1) c h
    exact key _ 0
  · exact ⟨[], by simp [writable_closed f o h], by simp⟩

/-! ## C103: nothing is sent before the connection is established -/

/-- **C103.**  On a connecting socket, as long as no writability event has arrived, nothing reaches the fd whatever is
written; what was accepted is all pending, in order. -/
theorem C103_held (ops : List Op) (hno : ∀ op ∈ ops, ∀ o, op ≠ .writable o) (hm : MemOk ops) :
    onWire (run (init true) ops).1 = [] ∧ pending (run (init true) ops).1 = accepted (run (init true) ops).2 := by
  have key : ∀ (ops : List Op) (f : WFd), f.notReady = true → f.wire = [] → (∀ op ∈ ops, ∀ o, op ≠ .writable o) →
      (run f ops).1.notReady = true ∧ (run f ops).1.wire = [] := by
    intro ops
    induction ops with
    | nil => intro f h1 h2 _; exact ⟨h1, h2⟩
    | cons op ops ih =>
      intro f h1 h2 hno
      simp only [run]
      refine ih _ ?_ ?_ (fun op' h => hno op' (by simp [h]))
      · cases op with
        | write t b r m =>
          simp only [step, write]
          split
          · simp only [doWrite]
            split
            · exact h1
            split
            · exact h1
            · rw [if_pos (Or.inr h1)]; simp only [enqueue]; split <;> exact h1
          · exact h1
        | writable o => exact absurd rfl (hno _ (by simp) o)
        | timeout => simp only [step, timeout, if_pos h1]; rw [(eventAndClose_eq f _).2.2.2]; exact h1
        | close => exact h1
      · cases op with
        | write t b r m =>
          simp only [step, write]
          split
          · simp only [doWrite]
            split
            · exact h2
            split
            · exact h2
            · rw [if_pos (Or.inr h1)]; simp only [enqueue]; split <;> exact h2
          · exact h2
        | writable o => exact absurd rfl (hno _ (by simp) o)
        | timeout => simp only [step, timeout, if_pos h1]; rw [(eventAndClose_eq f _).2.2.1]; exact h2
        | close => exact h2
  have hw := (key ops (init true) rfl rfl hno).2
  have ho : onWire (run (init true) ops).1 = [] := by simp [onWire, hw]
  have h := C50_stream_partial true ops hm
  rw [ho] at h
  exact ⟨ho, by simpa using h⟩

/-- **C103**, the time-out: if no writability event comes before the time-out, the fd is closed and the callback is told; after a
writability event the time-out does nothing. -/
theorem C103_timeout (f : WFd) (hopen : f.isOpen = true) :
    (f.notReady = true → timeout f = { f with isOpen := false, events := f.events ++ [.error (-eTIMEDOUT)] }) ∧
      (∀ o, timeout (writable f o) = writable f o) := by
  refine ⟨fun h => by simp [timeout, h, eventAndClose, hopen], fun o => ?_⟩
  simp [timeout, (writable_eq f o hopen).2.2.2]

/-! ## C104: failure of the call into the queue -/

/-- **C104** fails: if the call into the fd's queue fails, the public function reports the error number as a
number of bytes written. -/
theorem C104_positive : apiResult (-eINVAL) (some 1003) = 1003 := by decide

/-- **C104**, what holds: if the function ran, the result is the number of bytes, or -1 for each of the refusals. -/
theorem C104_ran_partial (f : WFd) (t : Tag) (b : List Byte) (r : WRes) (m : Bool) (hr : ∀ e, r = .fail e → 0 < e ∧ e ≤ 4095) :
    apiResult (step f (.write t b r m)).2 none = -1 ∨
      (0 ≤ apiResult (step f (.write t b r m)).2 none ∧ apiResult (step f (.write t b r m)).2 none ≤ b.length) := by
  have h1 : ∀ e : Int, 0 < e → e ≤ 4095 → apiResult (-e) none = -1 := by
    intro e h h'; simp only [apiResult]; rw [if_pos]; omega
  have h2 : ∀ n : Nat, apiResult (n : Int) none = n := by
    intro n; simp only [apiResult]; rw [if_neg]; omega
  have henq : ∀ (f : WFd) (rest : List Byte), apiResult (enqueue f t rest b.length m).2 none = -1 ∨
      (0 ≤ apiResult (enqueue f t rest b.length m).2 none ∧ apiResult (enqueue f t rest b.length m).2 none ≤ b.length) := by
    intro f rest
    simp only [enqueue]
    split
    · right; simp only [h2]; omega
    · left; exact h1 _ (by decide) (by decide)
  simp only [step, write]
  split
  · simp only [doWrite]
    split
    · left; exact h1 _ (by decide) (by decide)
    split
    · left; exact h1 _ (by decide) (by decide)
    split
    · exact henq f b
    cases r with
    | again => left; exact h1 _ (by decide) (by decide)
    | fail e => left; have := hr e rfl; exact h1 _ (by omega) (by omega)
    | took n =>
      simp only
      split
      · right; have := h2 0; simp only [Int.natCast_zero] at this; rw [this]; omega
      split
      · exact henq _ _
      · right; rw [h2]; omega
  · left; exact h1 _ (by decide) (by decide)

/-! ## Examples -/

/-- A history with a direct partial write, a queued send with a destination, a partial event, a refused low-level write, a second event. -/
def exOps : List Op :=
  [.write .write [1, 2, 3] (.took 2) true, .write (.sendto 4 9) [5, 6] (.took 2) true,
   .writable (fun i => if i = 0 then .took 9 else .took 1), .write .write [7] (.took 1) true, .writable (fun _ => .again)]

example : MemOk exOps ∧ onWire (run (init false) exOps).1 = [(.write, 1), (.write, 2), (.write, 3), (.sendto 4 9, 5)] ∧
    pending (run (init false) exOps).1 = [(.sendto 4 9, 6), (.write, 7)] ∧ (run (init false) exOps).1.isOpen = true := by
  refine ⟨?_, by decide +kernel, by decide +kernel, by decide +kernel⟩
  intro op hop t b r m he
  simp only [exOps, List.mem_cons, List.not_mem_nil, or_false] at hop
  rcases hop with h | h | h | h | h <;> rw [h] at he <;> simp_all

example : onWire (events (run (init false) exOps).1 (List.replicate 4 (fun _ => .took 1))) = accepted (run (init false) exOps).2 := by
  decide +kernel

/-- A connecting socket: two writes are held, then flushed by the first writability event. -/
example : ((run (init true) [.write .write [1] (.took 1) true, .write .write [2] (.took 1) true]).1.wire = []) ∧
    onWire (run (init true) [.write .write [1] (.took 1) true, .write .write [2] (.took 1) true, .writable (fun _ => .took 5)]).1
      = [(.write, 1), (.write, 2)] := by decide +kernel

/-- A failing low-level write in an event closes the fd; later writes are refused. -/
example : (run (init false) [.write .write [1, 2] (.took 1) true, .writable (fun _ => .fail 1005), .write .write [3] (.took 1) true]).2.map (·.2)
    = [2, 0, -1022] := by decide +kernel

/-! ## C122 (write side): a closed fd -/

theorem closed_step (f : WFd) (op : Op) (h : f.isOpen = false) : (step f op).1 = f := by
  cases op with
  | write t b r m => simp [step, write, h]
  | writable o => exact writable_closed f o (by simp [h])
  | timeout => simp [step, timeout, eventAndClose, h]
  | close => cases f; simp_all [step]

theorem closed_run (ops : List Op) : ∀ f, f.isOpen = false → (run f ops).1 = f ∧
    ∀ x ∈ (run f ops).2, (∃ t b r m, x.1 = .write t b r m) → x.2 = -1022 := by
  induction ops with
  | nil => intro f _; exact ⟨rfl, by simp [run]⟩
  | cons op ops ih =>
    intro f h
    have h1 := closed_step f op h
    have h2 := ih (step f op).1 (by rw [h1]; exact h)
    refine ⟨by simp only [run]; rw [h2.1, h1], ?_⟩
    intro x hx
    simp only [run, List.mem_cons] at hx
    rcases hx with rfl | hx
    · rintro ⟨t, b, r, m, hxe⟩
      simp only at hxe
      subst hxe
      simp [step, write, h, eINVAL]
    · exact h2.2 x hx

/-- C122: after `aosl_close` (or `aosl_mpq_del_fd`) nothing more reaches the fd, whatever happens later, no event is announced, and every write
is refused with `AOSL_EINVAL`; what was still queued is dropped. -/
theorem C122_write_closed (f : WFd) (ops : List Op) :
    (run (step f .close).1 ops).1.wire = f.wire ∧ (run (step f .close).1 ops).1.events = f.events ∧
    ∀ x ∈ (run (step f .close).1 ops).2, (∃ t b r m, x.1 = .write t b r m) → x.2 = -1022 := by
  have h := closed_run ops (step f .close).1 rfl
  exact ⟨by rw [h.1]; rfl, by rw [h.1]; rfl, h.2⟩

/-- The hypotheses of the theorem are met with data still in the queue: the write after the close is refused and the queued bytes stay off the wire. -/
example : (run (step (run (init true) [.write .write [1, 2] .again true]).1 .close).1
    [.writable (fun _ => .took 9), .write .write [3] (.took 1) true]) =
    (⟨[⟨.write, [1, 2], 0⟩], 2, true, false, [], []⟩,
      (run (step (run (init true) [.write .write [1, 2] .again true]).1 .close).1
        [.writable (fun _ => .took 9), .write .write [3] (.took 1) true]).2) ∧
    (run (step (run (init true) [.write .write [1, 2] .again true]).1 .close).1
      [.writable (fun _ => .took 9), .write .write [3] (.took 1) true]).2.map (·.2) = [0, -1022] := by
  refine ⟨rfl, by decide⟩

/-- An open fd has announced no error; a closed one at most one, at the very end. -/
def ErrFine (f : WFd) : Prop :=
  (∀ e, Ev.error e ∉ f.events) ∨ (f.isOpen = false ∧ ∃ l e, f.events = l ++ [.error e] ∧ ∀ e', Ev.error e' ∉ l)

theorem errFine_open (f : WFd) (h : ErrFine f) (ho : f.isOpen = true) : ∀ e, Ev.error e ∉ f.events := by
  rcases h with h | ⟨h, _⟩
  · exact h
  · rw [h] at ho; cases ho

theorem enqueue_events (f : WFd) (t : Tag) (rest : List Byte) (len : Nat) (m : Bool) :
    (enqueue f t rest len m).1.events = f.events ∧ (enqueue f t rest len m).1.isOpen = f.isOpen := by
  unfold enqueue; split <;> exact ⟨rfl, rfl⟩

theorem write_events (f : WFd) (t : Tag) (b : List Byte) (r : WRes) (m : Bool) :
    (write f t b r m).1.events = f.events ∧ (write f t b r m).1.isOpen = f.isOpen := by
  unfold write
  split
  · unfold doWrite
    split
    · exact ⟨rfl, rfl⟩
    split
    · exact ⟨rfl, rfl⟩
    split
    · exact enqueue_events ..
    split
    · exact ⟨rfl, rfl⟩
    · exact ⟨rfl, rfl⟩
    · simp only
      split
      · exact ⟨rfl, rfl⟩
      split
      · exact enqueue_events ..
      · exact ⟨rfl, rfl⟩
  · exact ⟨rfl, rfl⟩

theorem eventAndClose_fine (f : WFd) (e : Int) (h : ErrFine f) : ErrFine (eventAndClose f e) := by
  unfold eventAndClose
  split
  · rename_i ho
    exact .inr ⟨rfl, f.events, e, rfl, errFine_open f h ho⟩
  · exact h

theorem step_errFine (f : WFd) (op : Op) (h : ErrFine f) : ErrFine (step f op).1 := by
  cases op with
  | write t b r m =>
    have hw := write_events f t b r m
    simp only [step, ErrFine, hw.1, hw.2]
    exact h
  | writable o =>
    simp only [step, writable]
    split
    · rename_i ho
      have hn := errFine_open f h ho
      split
      · refine .inl ?_
        intro e he
        simp only [List.mem_append, List.mem_singleton] at he
        rcases he with he | he
        · exact hn e he
        · cases he
      · exact .inl hn
      · exact eventAndClose_fine _ _ (.inl hn)
    · exact h
  | timeout =>
    simp only [step, timeout]
    split
    · exact eventAndClose_fine _ _ h
    · exact h
  | close =>
    simp only [step]
    rcases h with h | ⟨_, h⟩
    · exact .inl h
    · exact .inr ⟨rfl, h⟩

theorem run_errFine (ops : List Op) : ∀ f, ErrFine f → ErrFine (run f ops).1 := by
  induction ops with
  | nil => intro f h; exact h
  | cons op ops ih => intro f h; simp only [run]; exact ih _ (step_errFine f op h)

/-- C122: in every history of an fd an error announced on the write side (failing write of queued data, connect timeout) is the last event and the only
error, and the fd is then closed. -/
theorem C122_write_error_last (nr : Bool) (ops : List Op) (i : Nat) (e : Int) (h : (run (init nr) ops).1.events[i]? = some (.error e)) :
    i + 1 = (run (init nr) ops).1.events.length ∧ (run (init nr) ops).1.isOpen = false ∧
    ∀ j e', (run (init nr) ops).1.events[j]? = some (.error e') → j = i := by
  rcases run_errFine ops (init nr) (.inl (by simp [init])) with hf | ⟨hc, l, e0, hl, hn⟩
  · exact absurd (List.mem_of_getElem? h) (hf e)
  · have key : ∀ (j : Nat) (e' : Int), (run (init nr) ops).1.events[j]? = some (.error e') → j = l.length := by
      intro j e' hj
      rw [hl] at hj
      by_cases h1 : j < l.length
      · rw [List.getElem?_append_left h1] at hj
        exact absurd (List.mem_of_getElem? hj) (hn e')
      · by_cases h2 : j = l.length
        · exact h2
        · rw [List.getElem?_append_right (by omega), List.getElem?_eq_none (by simp; omega)] at hj
          cases hj
    refine ⟨?_, hc, ?_⟩
    · rw [key i e h, hl]; simp
    · intro j e' hj; rw [key j e' hj, key i e h]

/-- The hypothesis is met: the queued write fails with error 2000, announced after the earlier "ready". -/
example : (run (init false) [.writable (fun _ => .again), .write .write [1, 2] (.took 1) true, .writable (fun _ => .fail 2000),
    .writable (fun _ => .took 5)]).1.events = [.ready, .error (-2000)] := by decide

/-- C122: the failure of a low-level write of queued data is announced with its error number. -/
theorem C122_write_fails (f : WFd) (o : Nat → WRes) (e : Nat) (ho : f.isOpen = true) (hq : f.queue ≠ []) (h0 : o 0 = .fail e) :
    (writable f o).events = f.events ++ [.error (-(e : Int))] ∧ (writable f o).isOpen = false ∧ (writable f o).wire = f.wire := by
  cases hqq : f.queue with
  | nil => exact absurd hqq hq
  | cons n ns => simp [writable, ho, hqq, drain, h0, eventAndClose]

/-- C122: an fd that did not become ready in time (a connect without an answer) is announced with `AOSL_ETIMEDOUT` and closed; one that did is left alone. -/
theorem C122_connect_timeout (f : WFd) (ho : f.isOpen = true) :
    (f.notReady = true → (timeout f).events = f.events ++ [.error (-1110)] ∧ (timeout f).isOpen = false) ∧ (f.notReady = false → timeout f = f) := by
  refine ⟨fun h => ?_, fun h => ?_⟩ <;> simp [timeout, h, eventAndClose, ho, eTIMEDOUT]

end Verif.IoWrite
