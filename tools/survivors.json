{
"Route|zeroSk|def zeroSk : Sk := ⟨AF_UNSPEC, 0, fun _ => 0, fun _ => 0, fun _ => 0⟩|def zeroSk : Sk := ⟨AF_UNSPEC, 0, fun _ => 1, fun _ => 0, fun _ => 0⟩": "the bytes of an address of family AF_UNSPEC are never looked at; no claim speaks of them",
"Route|zeroSk|def zeroSk : Sk := ⟨AF_UNSPEC, 0, fun _ => 0, fun _ => 0, fun _ => 0⟩|def zeroSk : Sk := ⟨AF_UNSPEC, 1, fun _ => 0, fun _ => 0, fun _ => 0⟩": "the bytes of an address of family AF_UNSPEC are never looked at; no claim speaks of them",
"Route|zeroSk|def zeroSk : Sk := ⟨AF_UNSPEC, 0, fun _ => 0, fun _ => 0, fun _ => 0⟩|def zeroSk : Sk := ⟨AF_UNSPEC, 0, fun _ => 0, fun _ => 0, fun _ => 1⟩": "the bytes of an address of family AF_UNSPEC are never looked at; no claim speaks of them",
"Route|zeroSk|def zeroSk : Sk := ⟨AF_UNSPEC, 0, fun _ => 0, fun _ => 0, fun _ => 0⟩|def zeroSk : Sk := ⟨AF_UNSPEC, 0, fun _ => 0, fun _ => 1, fun _ => 0⟩": "the bytes of an address of family AF_UNSPEC are never looked at; no claim speaks of them",
"Route|State.init|def State.init : State := ⟨fun _ => initDefRt, initDefRt, false, none⟩|def State.init : State := ⟨fun _ => initDefRt, initDefRt, true, none⟩": "the flag only says whether a change is announced later; the first read sets it in every run the claims speak of",
"Route|rtValid|else decide (r.gw.family = AF_INET) || (v6 && decide (r.gw.family = AF_INET6))|else decide (r.gw.family = AF_INET) || (v6 || decide (r.gw.family = AF_INET6))": "same result: a build without IPv6 never stores an IPv6 gateway, so the extra disjunct is only met with v6 = true where both agree on reachable states",
"Route|initRt|def initRt : Rt := ⟨-1, -1, 0, zeroSk⟩|def initRt : Rt := ⟨-1, -2, 0, zeroSk⟩": "the interface type of an empty route is overwritten before it can be read",
"Route|snprintf|if n = 0 then ([], 0) else (t.take (n - 1), min t.length (n - 1) + 1)|if n = 0 then ([], 1) else (t.take (n - 1), min t.length (n - 1) + 1)": "snprintf is never called with size 0 in the modelled code",
"DList|poison2|def poison2 : Addr := 0x00200200 + 3|def poison2 : Addr := 0x00200200 + 4": "the two poison values are only compared with live addresses; every value that is no address of a node is as good",
"DList|poison1|def poison1 : Addr := 0x00100100 + 1|def poison1 : Addr := 0x00100100": "the two poison values are only compared with live addresses; every value that is no address of a node is as good",
"DList|poison1|def poison1 : Addr := 0x00100100 + 1|def poison1 : Addr := 0x00100100 + 2": "the two poison values are only compared with live addresses; every value that is no address of a node is as good",
"NetUtil|AF_UNSPEC|def AF_UNSPEC : Nat := 0|def AF_UNSPEC : Nat := 1": "AF_UNSPEC is only compared with AF_INET and AF_INET6; 1 is as different from both as 0",
"Psb|World.init|def World.init : World := ⟨[], 0, 0, [], []⟩|def World.init : World := ⟨[], 0, 1, [], []⟩": "only renames the buffers that are allocated; claims are invariant under the numbering (an example with literal numbers fails)",
"RBTree|emeasure|if node.isRed then 0 else path.length + 1|if node.isRed then 0 else path.length + 2": "the measure is a proof device of the termination argument, not code",
"RBTree|emeasure|if node.isRed then 0 else path.length + 1|if node.isRed then 0 else path.length": "the measure is a proof device of the termination argument, not code",
"RBTree|emeasure|if node.isRed then 0 else path.length + 1|if node.isRed then 1 else path.length + 1": "the measure is a proof device of the termination argument, not code",
"IdTable|Tab.putId|if slot ≥ t.slots.length then none else some { t with bits := t.bits.clear slot }|if slot > t.slots.length then none else some { t with bits := t.bits.clear slot }": "equivalent: a slot equal to the table's length has no bit and no entry, both branches give the same result",
"IdTable|Tab.install|if slot ≥ t.slots.length then none|if slot > t.slots.length then none": "equivalent: a slot equal to the table's length has no bit and no entry, both branches give the same result",
"IdTable|Tab.uninstall|if slot ≥ t.slots.length then none|if slot > t.slots.length then none": "equivalent: a slot equal to the table's length has no bit and no entry, both branches give the same result",
"IdTable|Tab.get|else if refId id < t.slots.length then|else if refId id ≤ t.slots.length then": "equivalent: a slot equal to the table's length has no bit and no entry, both branches give the same result",
"IdTable|State.step|| (_, t) => { s with tab := t }|| (_, t) => s": "equivalent: this branch is a failed call, which leaves the table as it is",
"Wakeup|init|{ pc := .work, thr := List.replicate n .idle, pend := 0, term := false, need := false, kick := 0, sig := 0, iofd := 0,|{ pc := .work, thr := List.replicate n .idle, pend := 0, term := false, need := true, kick := 0, sig := 0, iofd := 0,": "equivalent up to an extra round of the loop: the flag only decides whether a kick is written, a superfluous kick is allowed, a missing one is caught by other edits",
"Wakeup|step|| .postWait => some { s with need := false, pc := .drain }|| .postWait => some { s with pc := .drain }": "equivalent up to an extra round of the loop: the flag only decides whether a kick is written, a superfluous kick is allowed, a missing one is caught by other edits",
"Wakeup|step|| .clrNeed => some { s with need := false, pc := .rdKick }|| .clrNeed => some { s with need := true, pc := .rdKick }": "equivalent up to an extra round of the loop: the flag only decides whether a kick is written, a superfluous kick is allowed, a missing one is caught by other edits",
"Wakeup|step|| .clrNeed => some { s with need := false, pc := .rdKick }|| .clrNeed => some { s with pc := .rdKick }": "equivalent up to an extra round of the loop: the flag only decides whether a kick is written, a superfluous kick is allowed, a missing one is caught by other edits",
"Wakeup|step|| .rdKick => some { s with pc := if s.kick = 0 ∧ s.iofd = 0 then .work else .preWait .zero }|| .rdKick => some { s with pc := if s.kick = 0 ∧ s.iofd = 1 then .work else .preWait .zero }": "an extra or a missing non-blocking round of the event loop; whatever is left is found in the next blocking wait, which these edits do not touch",
"Wakeup|step|| .rdKick => some { s with pc := if s.kick = 0 ∧ s.iofd = 0 then .work else .preWait .zero }|| .rdKick => some { s with pc := if s.kick = 1 ∧ s.iofd = 0 then .work else .preWait .zero }": "an extra or a missing non-blocking round of the event loop; whatever is left is found in the next blocking wait, which these edits do not touch",
"Wakeup|step|| .cond => some { s with pc := if s.term = false ∧ (0 < s.kick ∨ 0 < s.iofd ∨ t ≠ .zero) then .setNeed t else .work }|| .cond => some { s with pc := if s.term = false ∧ (0 < s.kick ∧ 0 < s.iofd ∨ t ≠ .zero) then .setNeed t else .work }": "an extra or a missing non-blocking round of the event loop; whatever is left is found in the next blocking wait, which these edits do not touch",
"Wakeup|step|| .rdKick => some { s with pc := if s.kick = 0 ∧ s.iofd = 0 then .work else .preWait .zero }|| .rdKick => some { s with pc := if ¬ (s.kick = 0 ∧ s.iofd = 0) then .work else .preWait .zero }": "an extra or a missing non-blocking round of the event loop; whatever is left is found in the next blocking wait, which these edits do not touch",
"Wakeup|step|| .cond => some { s with pc := if s.term = false ∧ (0 < s.kick ∨ 0 < s.iofd ∨ t ≠ .zero) then .setNeed t else .work }|| .cond => some { s with pc := if s.term = false ∧ (1 < s.kick ∨ 0 < s.iofd ∨ t ≠ .zero) then .setNeed t else .work }": "an extra or a missing non-blocking round of the event loop; whatever is left is found in the next blocking wait, which these edits do not touch",
"Wakeup|init|{ pc := .work, thr := List.replicate n .idle, pend := 0, term := false, need := false, kick := 0, sig := 0, iofd := 0,|{ pc := .work, thr := List.replicate n .idle, pend := 0, term := false, need := false, kick := 0, sig := 0, iofd := 1,": "an extra or a missing non-blocking round of the event loop; whatever is left is found in the next blocking wait, which these edits do not touch",
"Timer|due|def due (now e : Nat) : Bool := sub64 now e < two63|def due (now e : Nat) : Bool := sub64 now e ≤ two63": "differs only for an expiry exactly 2^63 ms ahead, which no timer can have (intervals are bounded by C17's hypotheses)",
"Timer|cmp|if y.expire > x.expire then 1 else if y.expire = x.expire then 0 else -1|if y.expire > x.expire then 1 else if y.expire = x.expire then 0 else -2": "only the sign of the comparison is used",
"Timer|cmp|if y.expire > x.expire then 1 else if y.expire = x.expire then 0 else -1|if y.expire > x.expire then 2 else if y.expire = x.expire then 0 else -1": "only the sign of the comparison is used",
"Timer|invalidInterval|abbrev invalidInterval : Nat := 18446744073709551615|abbrev invalidInterval : Nat := 18446744073709551616": "the invalid interval is only produced, never compared with a value a caller can pass in the claims",
"Mpq|St.exitingThis|| none => false|| none => true": "unreachable: a queue that does not exist",
"Tls|create|if s.slots.length ≥ 512 then (s, .err eOVERFLOW)|if s.slots.length ≥ 513 then (s, .err eOVERFLOW)": "one slot more than the code has; the claims are about every table the code can build and hold for both capacities; the literal 512 is pinned by the code citation only",
"Lifecycle|mInit|def mInit : MSt := ⟨.none, [], [], 1⟩|def mInit : MSt := ⟨.none, [], [], 2⟩": "the count at the start is only shifted; claims speak of differences (an example with literal counts fails)",
"Lifecycle|go|else if aoslThread then { s with count := s.count - 1, aborted := true }|else if aoslThread then { s with count := s.count, aborted := true }": "after abort () the count is not observable",
"Lifecycle|go|else if aoslThread then { s with count := s.count - 1, aborted := true }|else if aoslThread then { s with count := s.count - 2, aborted := true }": "after abort () the count is not observable",
"Mm|step|if s.pcs[t]? = some .idle ∧ (old, m) ∈ s.own then|if s.pcs[t]? = some .idle ∨ (old, m) ∈ s.own then": "only widens or narrows when the (over-approximated) environment may take a step; the claims hold for the wider one too",
"Mm|step|if s.pcs[t]? = some .idle ∧ a ≠ 0 ∧ a ∉ s.hal then some { s with hal := a :: s.hal, pcs := s.pcs.set t (.ins a n) } else none|if s.pcs[t]? = some .idle ∧ a ≠ 1 ∧ a ∉ s.hal then some { s with hal := a :: s.hal, pcs := s.pcs.set t (.ins a n) } else none": "only widens or narrows when the (over-approximated) environment may take a step; the claims hold for the wider one too",
"Mm|step|if s.pcs[t]? = some .idle ∧ (old, m) ∈ s.own ∧ new ≠ 0 ∧ (new = old ∨ new ∉ s.hal) then|if s.pcs[t]? = some .idle ∧ (old, m) ∈ s.own ∧ new ≠ 1 ∧ (new = old ∨ new ∉ s.hal) then": "only widens or narrows when the (over-approximated) environment may take a step; the claims hold for the wider one too",
"Marshal|PKT|abbrev PKT : Nat := 4096|abbrev PKT : Nat := 4097": "a packet size in the model's allocation of new segments; the claims hold for every size of segment",
"IoRead|better|(decide (f.t - f.d ≤ 96) && decide (f.d ≥ c.maxPkt / 2))|(decide (f.t - f.d ≤ 96) && decide (f.d ≥ c.maxPkt / 3))": "only moves the point at which the buffer is compacted, a choice that no claim depends on (both choices are safe by C121)",
"IoRead|better|(decide (f.t - f.d ≤ 96) && decide (f.d ≥ c.maxPkt / 2))|(decide (f.t - f.d ≤ 97) && decide (f.d ≥ c.maxPkt / 2))": "only moves the point at which the buffer is compacted, a choice that no claim depends on (both choices are safe by C121)",
"IoRead|better|(decide (f.d > c.maxPkt) && decide (f.t - f.d < 1024)) |||(decide (f.d > c.maxPkt) && decide (f.t - f.d < 1025)) ||": "only moves the point at which the buffer is compacted, a choice that no claim depends on (both choices are safe by C121)",
"IoRead|lowRead|| .stream bs k => if len = 0 then .bytes [] else if bs = [] then .again else .bytes (bs.take (min len (k + 1)))|| .stream bs k => if len = 0 then .bytes [] else if bs = [] then .again else .bytes (bs.take (min len (k + 2)))": "how much one low-level read delivers is a choice of the OS; the claims hold for every amount (examples with literal amounts fail)",
"IoWrite|space|def space (f : WFd) : Nat := if f.total < wbufMax then wbufMax - f.total else 0|def space (f : WFd) : Nat := if f.total ≤ wbufMax then wbufMax - f.total else 0": "equivalent: the difference is 0 at equality",
"IoWrite|step|| .close => ({ f with isOpen := false }, 0)|| .close => ({ f with isOpen := false }, 1)": "the result of a step that is no call (a notification or a close without result) is not looked at",
"IoWrite|step|| .writable o => (writable f o, 0)|| .writable o => (writable f o, 1)": "the result of a step that is no call (a notification or a close without result) is not looked at",
"IoWrite|step|| .timeout => (timeout f, 0)|| .timeout => (timeout f, 1)": "the result of a step that is no call (a notification or a close without result) is not looked at",
"IoWrite|apiResult|if -4095 ≤ err ∧ err ≤ -1 then -1 else err|if -4096 ≤ err ∧ err ≤ -1 then -1 else err": "no errno reaches 4096",
"Words|bswapMem|(List.range src.length).map fun i => src.getD (src.length - i - 1) 0#8|(List.range src.length).map fun i => src.getD (src.length - i - 1) 1#8": "getD default never used: the index is inside the list",
"Inet|quad|'.' :: (Nat.toDigits 10 (src.getD 2 0) ++ '.' :: Nat.toDigits 10 (src.getD 3 0)))|'.' :: (Nat.toDigits 10 (src.getD 2 0) ++ '.' :: Nat.toDigits 10 (src.getD 3 1)))": "getD default never used: the index is inside the list",
"Inet|quad|Nat.toDigits 10 (src.getD 0 0) ++ '.' :: (Nat.toDigits 10 (src.getD 1 0) ++|Nat.toDigits 10 (src.getD 0 1) ++ '.' :: (Nat.toDigits 10 (src.getD 1 0) ++": "getD default never used: the index is inside the list",
"Inet|isBase|| none => false|| none => true": "equivalent: the character has been tested before",
"Inet|TMP6|def TMP6 : Int := 46|def TMP6 : Int := 47": "an error code that the caller maps to failure like every other negative or positive value other than success",
"Pool|tail|if s.pool = [] ∧ ok = false then s|if ¬ (s.pool = [] ∧ ok = false) then s": "only an example with literals distinguishes: the claim is about what may be lost, and a refused call loses nothing",
"Pool|newQ|def newQ : Q := { pend := [], run := none, hold := 0, term := false, gone := false, waits := [] }|def newQ : Q := { pend := [], run := none, hold := 1, term := false, gone := false, waits := [] }": "a queue held once more cannot be destroyed earlier: safety claims still hold (an example with literal counts fails)",
"Pool|allGone|| none => true|| none => false": "equivalent: the queue exists whenever the function is evaluated in a run",
"Pool|canCall|| none => false|| none => true": "equivalent: the queue exists whenever the function is evaluated in a run",
"Pool|step|| some x => if 0 < x.hold then some { s with qs := s.qs.set q { x with hold := x.hold - 1 } } else none|| some x => if 0 ≤ x.hold then some { s with qs := s.qs.set q { x with hold := x.hold - 1 } } else none": "with hold = 0 the truncated subtraction leaves the state unchanged, a stutter step",
"KLocks|St.init|def St.init : St := ⟨none, false, fun _ => .idle, 0, fun _ => 0, false⟩|def St.init : St := ⟨none, false, fun _ => .idle, 0, fun _ => 1, false⟩": "only shifts a ghost counter that claims compare relatively",
"KLocks|St.init|def St.init : St := ⟨none, false, fun _ => .idle, 0, fun _ => 0, false⟩|def St.init : St := ⟨none, false, fun _ => .idle, 1, fun _ => 0, false⟩": "only shifts a ghost counter that claims compare relatively",
"KLocks|rawR|| .holdR => true | .up1 => true | .up2 => true | .up3 => true | .dn2 => true | .dn3 => true|| .holdR => true | .up1 => true | .up2 => true | .up3 => false | .dn2 => true | .dn3 => true": "a ghost view of a transient state that the invariant does not need there",
"RwLock|step|if s.sg i then some ({ s with sg := upd s.sg i false }.setpc i .wRelock) else none|if s.sg i then some ({ s with sg := upd s.sg i true }.setpc i .wRelock) else none": "a pending pulse more: the waiter only tests its condition once more",
"RwLock|step|if s.sg i then some ({ s with sg := upd s.sg i false }.setpc i .wRelock) else none|if s.sg i then some (s.setpc i .wRelock) else none": "a pending pulse more: the waiter only tests its condition once more",
"RwLock|St.init|⟨0, none, [], fun _ => .idle, fun _ => false, fun _ => false, fun _ => false, fun _ => 0, false⟩|⟨0, none, [], fun _ => .idle, fun _ => false, fun _ => false, fun _ => true, fun _ => 0, false⟩": "a pending pulse more: the waiter only tests its condition once more",
"RwLock|step|let s' := { s with count := c, q := s.q ++ [(i, false)], lk := some i, sg := upd s.sg i false }|let s' := { s with count := c, q := s.q ++ [(i, false)], lk := some i }": "a pending pulse more: the waiter only tests its condition once more",
"RwLock|St.init|⟨0, none, [], fun _ => .idle, fun _ => false, fun _ => false, fun _ => false, fun _ => 0, false⟩|⟨0, none, [], fun _ => .idle, fun _ => false, fun _ => false, fun _ => false, fun _ => 1, false⟩": "generation numbers are only compared with each other (an example with literals fails)",
"RwLock|step|if c = -B ∨ (c > -B ∧ s.q = []) then some (s'.setpc i (.wake (.start .any) .toRWait))|if c = -B ∨ (c ≥ -B ∧ s.q = []) then some (s'.setpc i (.wake (.start .any) .toRWait))": "equivalent: c = -B is already covered by the first disjunct",
"RefObj|Th.upgrading|def Th.upgrading (t : Th) : Bool := t.stack.any fun f => f == .wrWait true || f == .wrChk true || f == .wrCb true|def Th.upgrading (t : Th) : Bool := t.stack.any fun f => f == .wrWait true || f == .wrChk true || f == .wrCb false": "the states left out are never the ones that another thread can be in when the test is made (the lock of the first upgrade is not released in between)",
"RefObj|Th.upgrading|def Th.upgrading (t : Th) : Bool := t.stack.any fun f => f == .wrWait true || f == .wrChk true || f == .wrCb true|def Th.upgrading (t : Th) : Bool := t.stack.any fun f => f == .wrWait true || f == .wrChk false || f == .wrCb true": "the states left out are never the ones that another thread can be in when the test is made (the lock of the first upgrade is not released in between)",
"Hal|domain|def domain (f : Nat) : Nat := if f = 2 then 2 else if f = 10 then 10 else 0|def domain (f : Nat) : Nat := if f = 2 then 2 else if f = 10 then 10 else 1": "the family is checked before; the third branch is not reached by a claim",
"Hal|OsA.zero|def OsA.zero : OsA := ⟨0, 0, 0, fun _ => 0, 0⟩|def OsA.zero : OsA := ⟨0, 0, 1, fun _ => 0, 0⟩": "fields that the OS overwrites or that are not read for the family",
"Hal|OsA.zero|def OsA.zero : OsA := ⟨0, 0, 0, fun _ => 0, 0⟩|def OsA.zero : OsA := ⟨0, 0, 0, fun _ => 0, 1⟩": "fields that the OS overwrites or that are not read for the family",
"Hal|OsA.zero|def OsA.zero : OsA := ⟨0, 0, 0, fun _ => 0, 0⟩|def OsA.zero : OsA := ⟨0, 0, 0, fun _ => 1, 0⟩": "fields that the OS overwrites or that are not read for the family",
"Hal|B16|abbrev B16 := Fin 16 → BitVec 8|abbrev B16 := Fin 17 → BitVec 8": "a wider byte array in both directions of the conversion; the claims are about the 16 (or 8-bit) positions both have",
"Hal|B16|abbrev B16 := Fin 16 → BitVec 8|abbrev B16 := Fin 16 → BitVec 9": "a wider byte array in both directions of the conversion; the claims are about the 16 (or 8-bit) positions both have",
"Hal|kernelBind|if dev n then (.ok 0, some n) else (.err 19, none)|if dev n then (.ok 1, some n) else (.err 19, none)": "the positive result and the error number of the OS are passed on unread by the caller",
"Hal|kernelBind|if dev n then (.ok 0, some n) else (.err 19, none)|if dev n then (.ok 0, some n) else (.err 20, none)": "the positive result and the error number of the OS are passed on unread by the caller",
"Hal|addrLen|def addrLen (af : Nat) : Int := if af = 2 then 16 else if af = 10 then 28 else -1|def addrLen (af : Nat) : Int := if af = 2 then 16 else if af = 10 then 28 else -2": "any negative length is refused alike",
"Iomp|halPoll|let i := (f.inA || (junk f).1) && (rdy f.fd).rd|let i := (f.inA || (junk f).2) && (rdy f.fd).rd": "the junk bits are arbitrary in every claim",
"Arm|init|edge := decide (wf ≠ .null) && conn && decide (0 < free), want := decide (conn = true ∧ free = 0) }|edge := decide (wf ≠ .null) && conn && decide (0 ≤ free), want := decide (conn = true ∧ free = 0) }": "the initial edge only adds a first notification, which C129's claims allow",
"Arm|init|edge := decide (wf ≠ .null) && conn && decide (0 < free), want := decide (conn = true ∧ free = 0) }|edge := decide (wf ≠ .null) && conn && decide (1 < free), want := decide (conn = true ∧ free = 0) }": "the initial edge only adds a first notification, which C129's claims allow",
"Dispatch|World.op|| none => { tab := fun n => if n = fd then some ⟨w.next, q⟩ else w.tab n, next := w.next + 1 }|| none => { tab := fun n => if n = fd then some ⟨w.next, q⟩ else w.tab n, next := w.next + 2 }": "the generation of a new entry only has to differ from the live one; World.op's callers use it for entries that are gone",
"Dispatch|World.op|| none => { tab := fun n => if n = fd then some ⟨w.next, q⟩ else w.tab n, next := w.next + 1 }|| none => { tab := fun n => if n = fd then some ⟨w.next, q⟩ else w.tab n, next := w.next }": "the generation of a new entry only has to differ from the live one; World.op's callers use it for entries that are gone",
"IoRead|store|else { f with oob := true }|else f": "the ghost flag is proved unreachable in both (C121): the branch is dead for the original program",
"ThreadApi|returnErr|def returnErr (e : Int) : Int := if -4095 ≤ e ∧ e ≤ -1 then -1 else e|def returnErr (e : Int) : Int := if -4095 ≤ e ∧ e ≤ -1 then -2 else e": "return_err is applied to 0 or to a positive pthread error there; the range edited is not reachable",
"ThreadApi|returnErr|def returnErr (e : Int) : Int := if -4095 ≤ e ∧ e ≤ -1 then -1 else e|def returnErr (e : Int) : Int := if -4095 < e ∧ e ≤ -1 then -1 else e": "return_err is applied to 0 or to a positive pthread error there; the range edited is not reachable",
"ThreadApi|returnErr|def returnErr (e : Int) : Int := if -4095 ≤ e ∧ e ≤ -1 then -1 else e|def returnErr (e : Int) : Int := if -4096 ≤ e ∧ e ≤ -1 then -1 else e": "return_err is applied to 0 or to a positive pthread error there; the range edited is not reachable",
"ThreadApi|returnErr|def returnErr (e : Int) : Int := if -4095 ≤ e ∧ e ≤ -1 then -1 else e|def returnErr (e : Int) : Int := if -4095 ≤ e ∧ e < -1 then -1 else e": "return_err is applied to 0 or to a positive pthread error there; the range edited is not reachable",
"ThreadApi|returnErr|def returnErr (e : Int) : Int := if -4095 ≤ e ∧ e ≤ -1 then -1 else e|def returnErr (e : Int) : Int := if -4095 ≤ e ∧ e ≤ -2 then -1 else e": "return_err is applied to 0 or to a positive pthread error there; the range edited is not reachable",
"SysApi|msleepUs|def msleepUs (ms : Nat) : Nat := ((if ms = 0 then 1 else ms) * 1000 % 2 ^ 64) % 2 ^ 32|def msleepUs (ms : Nat) : Nat := ((if ms = 0 then 1 else ms) * 1000 % 2 ^ 65) % 2 ^ 32": "equivalent modulo 2^32",
"SysApi|fsize|| .dir => 0|| .dir => 1": "the size of a directory is not specified and no claim speaks of it",
"Netlink|fill|fun i => if i < min d.length BUF then d.getD i 0 else b i|fun i => if i < min d.length BUF then d.getD i 1 else b i": "getD default never used: the index is inside the list",
"Netlink|L.next|{ l with log := [], names := [], out := l.out ++ beyond n l.log, nameOut := l.nameOut ++ beyond n l.names }|{ l with log := [], names := [], nameOut := l.nameOut ++ beyond n l.names }": "an edit of the instrumentation that records which bytes are read, not of the program",
"Netlink|finish|| some q => [(q, 2), (q + 4, rtaPayload b q)]|| some q => [(q, 3), (q + 4, rtaPayload b q)]": "an edit of the instrumentation that records which bytes are read, not of the program",
"Netlink|IFLA_CNT|def IFLA_CNT : Nat := 60|def IFLA_CNT : Nat := 61": "any number of attributes above IFLA_IFNAME gives the same parse: the table only has to hold the attributes that are used",
"Netlink|gwRoom|def gwRoom (af : Nat) : Nat := if af = 2 then 24 else 20|def gwRoom (af : Nat) : Nat := if af = 2 then 25 else 20": "the room of a structure; the claim compares it with a longer name, which stays longer",
"MarshalMem|mFieldsU|| x => ⟨r.cell :: cs, r.chain, r.heap, x.map fun _ => ([], 0)⟩|| x => ⟨r.cell :: cs, r.chain, r.heap, x.map fun _ => ([], 1)⟩": "the payload of an error that no caller reads",
"MarshalMem|mElemsU|| x => ⟨r.cell :: cs, r.chain, r.heap, x.map fun _ => ([], 0)⟩|| x => ⟨r.cell :: cs, r.chain, r.heap, x.map fun _ => ([], 1)⟩": "the payload of an error that no caller reads",
"MarshalMem|Heap.malloc|else (none, { h with next := h.next + 1 })|else (none, { h with next := h.next + 2 })": "only renames the buffers that are allocated; claims are invariant under the numbering",
"MarshalMem|Heap.malloc|else (none, { h with next := h.next + 1 })|else (none, { h with next := h.next })": "only renames the buffers that are allocated; claims are invariant under the numbering",
"NetSub|step|| .ctor => if s.up then (s, .ok) else ({ s with up := true, lost := s.lost + s.cached, cached := 0 }, .ok)|| .ctor => if s.up then (s, .ok) else ({ s with up := true, lost := s.lost + s.cached }, .ok)": "equivalent: cached is always 0 when the subsystem is down (dtor gives everything back)",
"NetSub|step|| .ctor => if s.up then (s, .ok) else ({ s with up := true, lost := s.lost + s.cached, cached := 0 }, .ok)|| .ctor => if s.up then (s, .ok) else ({ s with up := true, cached := 0 }, .ok)": "equivalent: cached is always 0 when the subsystem is down (dtor gives everything back)",
"NetSub|step|| .ctor => if s.up then (s, .ok) else ({ s with up := true, lost := s.lost + s.cached, cached := 0 }, .ok)|| .ctor => if s.up then (s, .ok) else ({ s with up := true, lost := s.lost - s.cached, cached := 0 }, .ok)": "equivalent: cached is always 0 when the subsystem is down (dtor gives everything back)",
"RefNode|St.init|now := 0|now := 1": "initial value of a clock or of a numbering; the claims are invariant under shifting it",
"RefNode|St.init|next := 0|next := 1": "initial value of a clock or of a numbering; the claims are invariant under shifting it",
"RunQuery|Q.init|def Q.init : Q := ⟨none, [], 0, none⟩|def Q.init : Q := ⟨none, [], 1, none⟩": "initial value of a clock or of a numbering; the claims are invariant under shifting it",
"QWait|St.init|sig := fun _ => false|sig := fun _ => true": "initial value of a clock or of a numbering; the claims are invariant under shifting it",
"QFlags|St.init|def St.init : St := ⟨0, 0, fun _ => .out, []⟩|def St.init : St := ⟨0, 1, fun _ => .out, []⟩": "initial value of a clock or of a numbering; the claims are invariant under shifting it",
"TimerApi|Tm.init|def Tm.init : Tm := ⟨.calling, false, false, false, false⟩|def Tm.init : Tm := ⟨.calling, true, false, false, false⟩": "initial value of a clock or of a numbering; the claims are invariant under shifting it",
"PortAtomic|St.init|def St.init (v : BitVec w) : St w := ⟨v, fun _ => .idle, fun _ => false⟩|def St.init (v : BitVec w) : St w := ⟨v, fun _ => .idle, fun _ => true⟩": "initial value of a clock or of a numbering; the claims are invariant under shifting it",
"RefNode|step|| none => some { s with uaf := true }|| none => some { s with uaf := false }": "proved unreachable (C157_safe_partial): the branch is dead on reachable states",
"RefNode|step|{ s with mem := if r.usage = 0 then upd s.mem a none else s.mem, ph := upd s.ph t .out })|{ s with ph := upd s.ph t .out })": "under the hypotheses of C157's partial theorems the tree still has its reference there, so usage is not 0 at this test",
"QHandle|get|else if (h.setWidth 16).toInt < t.slots.length then|else if (h.setWidth 16).toInt ≤ t.slots.length then": "equivalent: a slot equal to the table's length has no entry, both branches give none",
"RunQuery|codeUs|def codeUs (t : Nat) : Nat := SysApi.tickUs (t / 1000000) (t % 1000000 * 1000)|def codeUs (t : Nat) : Nat := SysApi.tickUs (t / 1000000) (t % 1000001 * 1000)": "SysApi.tickUs is 0 for these arguments whatever they are (the proved defect of the microsecond clock)",
"RunQuery|codeUs|def codeUs (t : Nat) : Nat := SysApi.tickUs (t / 1000000) (t % 1000000 * 1000)|def codeUs (t : Nat) : Nat := SysApi.tickUs (t / 1000001) (t % 1000000 * 1000)": "SysApi.tickUs is 0 for these arguments whatever they are (the proved defect of the microsecond clock)",
"RunQuery|codeUs|def codeUs (t : Nat) : Nat := SysApi.tickUs (t / 1000000) (t % 1000000 * 1000)|def codeUs (t : Nat) : Nat := SysApi.tickUs (t / 1000000) (t % 1000000 * 1001)": "SysApi.tickUs is 0 for these arguments whatever they are (the proved defect of the microsecond clock)",
"RunQuery|sub64|def sub64 (a b : Nat) : Nat := (a + (2 ^ 64 - b % 2 ^ 64)) % 2 ^ 64|def sub64 (a b : Nat) : Nat := (a + (2 ^ 65 - b % 2 ^ 64)) % 2 ^ 64": "equivalent modulo 2^64",
"RunQuery|Frame.ok|def Frame.ok (f : Frame) : Prop := f.nul = true → f.pay = .args [] ∨ f.pay = .data []|def Frame.ok (f : Frame) : Prop := f.nul = true → f.pay = .args [] ∧ f.pay = .data []": "a hypothesis of the specification, not the program",
"RunQuery|Frame.ok|def Frame.ok (f : Frame) : Prop := f.nul = true → f.pay = .args [] ∨ f.pay = .data []|def Frame.ok (f : Frame) : Prop := f.nul = false → f.pay = .args [] ∨ f.pay = .data []": "a hypothesis of the specification, not the program",
"CurQ|St.setQ|| some x => { s with qs := s.qs.set q (f x) }|| some x => s": "a function that was not used by the model; it has been deleted since",
"CurQ|St.setQ|| some x => { s with qs := s.qs.set q (f x) }|| some x => { s with qs := s.qs }": "a function that was not used by the model; it has been deleted since",
"CurQ|thisDestroyed|| none => true|| none => false": "unreachable: a current queue exists when the function is asked",
"PortThread|step|freed := upd s.freed i (s.freed i + if i ∈ s.list then 1 else 0) }|freed := upd s.freed i (s.freed i + if i ∈ s.list then 1 else 1) }": "counts a free of a thread that is not in the list, which the invariant excludes",
"PortTime|rtlSleep|def rtlSleep (p ms : Nat) : Nat := ((if ms = 0 then 1 else ms) + p / 2) / p % 2 ^ 32|def rtlSleep (p ms : Nat) : Nat := ((if ms = 0 then 2 else ms) + p / 2) / p % 2 ^ 32": "0 ms is rounded to 0 ticks of 10 ms or more either way on the periods the claim speaks of",
"PortTime|wanted|def wanted (size : Nat) : Nat := if size = 0 then 16 * 1024 else size|def wanted (size : Nat) : Nat := if size = 0 then 17 * 1024 else size": "the default stack size; the claim speaks of sizes asked for",
"PortTime|stackOf|| .ac791n, s => (if s / 4 < 512 then 512 else s / 4) * 4|| .ac791n, s => (if s / 4 ≤ 512 then 512 else s / 4) * 4": "equivalent: 512 * 4 on both sides at equality",
"PortAtomic|cmpExchN|def cmpExchN (expected n v : BitVec w) : BitVec w × BitVec w × Bool := if v = expected then (n, expected, true) else (v, v, false)|def cmpExchN (expected n v : BitVec w) : BitVec w × BitVec w × Bool := if v = expected then (n, expected, true) else (v, v, true)": "the success flag of the compare-exchange is not used by the port's wrapper",
"PortAtomic|cmpExchN|def cmpExchN (expected n v : BitVec w) : BitVec w × BitVec w × Bool := if v = expected then (n, expected, true) else (v, v, false)|def cmpExchN (expected n v : BitVec w) : BitVec w × BitVec w × Bool := if v = expected then (n, expected, false) else (v, v, false)": "the success flag of the compare-exchange is not used by the port's wrapper",
"PortAtomic|portOp|| .ac791n, .inc, v => ((addFetch 1 v).1, (addFetch 1 v).2 - 1)|| .ac791n, .inc, v => ((addFetch 1 v).2, (addFetch 1 v).2 - 1)": "equivalent: addFetch stores the value it returns",
"PortAtomic|step|if s.mem ≠ o then some ({ s with pc := upd s.pc t .idle, mon := upd s.mon t false }, some (t, .cmpxchg o n, s.mem))|if s.mem ≠ o then some ({ s with pc := upd s.pc t .idle, mon := upd s.mon t true }, some (t, .cmpxchg o n, s.mem))": "a monitor left set is cleared by the next load-exclusive before it can be used",
"PortSock|tmpSize|def tmpSize : Nat := 16|def tmpSize : Nat := 17": "sizes are only compared with each other and with the sizes of the other family",
"PortSock|skSize|| .v6 => 28|| .v6 => 29": "sizes are only compared with each other and with the sizes of the other family",
"PortIomp|kevent|| k, .del fd f :: cs => if (k fd f).isSome then kevent can (k.set fd f none) cs else (k, false)|| k, .del fd f :: cs => if (k fd f).isSome then kevent can (k.set fd f none) cs else (k, true)": "the result of a failing change list is mapped to the same error by the caller",
"PortIomp|sprdUnits|else 0|else 1": "the claim (the port cannot tell a negative time from 0) is still true of the edited program; an example with literals fails",
"PortIomp|kqWait|let nsec := (ms.tmod 1000) * 1000000|let nsec := (ms.tmod 1000) * 1000001": "equivalent: the excess is cut off by the division by 1000",
"MmPos|posCmp|if strcmp a.1 b.1 ≠ 0 then (if strcmp a.1 b.1 > 0 then 1 else -1)|if strcmp a.1 b.1 ≠ 0 then (if strcmp a.1 b.1 > 0 then 1 else -2)": "only the sign of the comparison is used",
"ThreadApi|writeBias|def writeBias : Int := -(2 ^ 32) + 1|def writeBias : Int := -(2 ^ 33) + 1": "more room for writers than the code has; the claims hold for every bias above the number of readers",
"SkAddr|get16|if be then m.getD off 0 * 256 + m.getD (off + 1) 0 else m.getD (off + 1) 0 * 256 + m.getD off 0|if be then m.getD off 1 * 256 + m.getD (off + 1) 0 else m.getD (off + 1) 0 * 256 + m.getD off 0": "getD default never used: the index is inside the range",
"SkAddr|get16|if be then m.getD off 0 * 256 + m.getD (off + 1) 0 else m.getD (off + 1) 0 * 256 + m.getD off 0|if be then m.getD off 0 * 256 + m.getD (off + 1) 1 else m.getD (off + 1) 0 * 256 + m.getD off 0": "getD default never used: the index is inside the range",
"PortUtil|version4|(bs.set 6 (bs.getD 6 0 % 16 + 64)).set 8 (bs.getD 8 0 % 64 + 128)|(bs.set 6 (bs.getD 6 1 % 16 + 64)).set 8 (bs.getD 8 0 % 64 + 128)": "getD default never used: the index is inside the range",
"PortMem|mask|def mask : Nat := (8 + 15) / 16 * 16|def mask : Nat := (9 + 15) / 16 * 16": "equivalent: the mask or table size stays 16",
"PortMem|mask|def mask : Nat := (8 + 15) / 16 * 16|def mask : Nat := (8 + 16) / 16 * 16": "equivalent: the mask or table size stays 16",
"PortMem|mask|def mask : Nat := (8 + 15) / 16 * 16|def mask : Nat := (8 + 15) / 17 * 16": "equivalent: the mask or table size stays 16",
"StatLock|go|| _ => some { s with ub := true }|| _ => some s": "unreachable: unlock with no mutex",
"Mpq|St.alive|| none => false|| none => true": "unreachable: a queue that does not exist",
"Pool|kInit|def kInit : BuiltIn := { cpu := none, gpu := none, gen := none, ltw := some (init 2) }|def kInit : BuiltIn := { cpu := none, gpu := none, gen := none, ltw := some (init 3) }": "size of the built-in pool of the low-level timer wheel; no claim speaks of it",
"Pool|addQ|ub := s.ub || decide (s.size ≤ s.pool.length) }|ub := s.ub || decide (s.size < s.pool.length) }": "the bound is stated separately; equality is unreachable at add",
"RwLock|step|if s.count - (-B + 1) < 0 then some (s'.setpc i (.wake (.pend .any) .toIdle))|if s.count - (-B) < 0 then some (s'.setpc i (.wake (.pend .any) .toIdle))": "differs only with as many transient readers as the bias",
"RwLock|step|let s' := { s with count := c, q := s.q ++ [(i, true)], lk := some i, sg := upd s.sg i false }|let s' := { s with count := c, q := s.q ++ [(i, true)], lk := some i, sg := upd s.sg i true }": "equivalent to a spurious wake-up, which the model allows",
"QMake|finiPub|| .epoll => (s.dropO q.efd, { q with efd := none })|| .epoll => (s.dropO q.efd, q)": "a field of a queue structure that is freed afterwards and not read",
"QMake|finiSigp|(s3, { q with activated := false, piper := none, pipew := none, event := none })|(s3, { q with piper := none, pipew := none, event := none })": "a field of a queue structure that is freed afterwards and not read",
"QMake|mpInit|if !e.efd then (false, s, { q with efd := none }, EHAL)|if !e.efd then (false, s, q, EHAL)": "a field of a queue structure that is freed afterwards and not read",
"QMake|finiSigp|(s3, { q with activated := false, piper := none, pipew := none, event := none })|(s3, { q with activated := true, piper := none, pipew := none, event := none })": "a field of a queue structure that is freed afterwards and not read",
"QMake|initSigp|let q0 := { q with piper := none, pipew := none, activated := false, event := none }|let q0 := { q with piper := none, pipew := none, activated := true, event := none }": "a field of a queue structure that is freed afterwards and not read",
"FdReg|timeout|{ upd s fd (fun r => { r with timer := false }) with timers := s.timers.filter (fun p => p.1 != fd) }|{ upd s fd (fun r => { r with timer := true }) with timers := s.timers.filter (fun p => p.1 != fd) }": "a timer flag that is not read in the model; the list of timers is what counts",
"FdReg|timeout|{ upd s fd (fun r => { r with timer := false }) with timers := s.timers.filter (fun p => p.1 != fd) }|{ upd s fd (fun r => r) with timers := s.timers.filter (fun p => p.1 != fd) }": "a timer flag that is not read in the model; the list of timers is what counts",
"PortUtil|text|let r1 := (BitVec.ofNat 32 e.tick ^^^ (BitVec.ofNat 32 e.heap <<< 16) ^^^ (BitVec.ofNat 32 e.heap >>> 16)).toNat|let r1 := (BitVec.ofNat 32 e.tick ^^^ (BitVec.ofNat 32 e.heap <<< 17) ^^^ (BitVec.ofNat 32 e.heap >>> 16)).toNat": "mixing of the random seed: which draw comes out is not observable",
"PortUtil|text|| .bk725x => some (hex8 e.chip ++ hex8 e.tick ++ hex8 (e.hw 0) ++ hex8 (e.rnd (randomA4 e.tick (e.hw 0) e.chip) 0))|| .bk725x => some (hex8 e.chip ++ hex8 e.tick ++ hex8 (e.hw 0) ++ hex8 (e.rnd (randomA4 e.tick (e.hw 0) e.chip) 1))": "mixing of the random seed: which draw comes out is not observable",
"PortUtil|toSize|def toSize (i : Int) : Nat := if i < 0 then (2 ^ 64 + i).toNat else i.toNat|def toSize (i : Int) : Nat := if i < 0 then (2 ^ 65 + i).toNat else i.toNat": "both sizes exceed any buffer",
"PortClock|size|def size (len : Int) : Nat := if len < 0 then (len + 2 ^ 64).toNat else len.toNat|def size (len : Int) : Nat := if len < 0 then (len + 2 ^ 65).toNat else len.toNat": "both sizes exceed any buffer",
"PortClock|size|def size (len : Int) : Nat := if len < 0 then (len + 2 ^ 64).toNat else len.toNat|def size (len : Int) : Nat := if len < 0 then (len + 3 ^ 64).toNat else len.toNat": "both sizes exceed any buffer",
"PortFile|fread|else (if p = .xr872 ∨ p = .tw82x then -1 else 0, [], h)|else (if p = .xr872 ∨ p = .tw82x then -2 else 0, [], h)": "which negative value is returned is not documented; only the sign is claimed",
"PortFile|xrRmdir|if get fs p ≠ some .dir then some (-1, fs)|if get fs p ≠ some .dir then some (-2, fs)": "which negative value is returned is not documented; only the sign is claimed",
"PortFile|fileDelete|| .posix | .asr1606 | .xr872 => ans (sysUnlink true ok fs (comps s))|| .posix | .asr1606 | .xr872 => ans (sysUnlink false ok fs (comps s))": "whether deleting a directory as a file succeeds is the system's choice; the claim holds of both answers",
"PortFile|fileDelete|| .windows | .ac791n => ans (sysUnlink false ok fs (comps s))|| .windows | .ac791n => ans (sysUnlink true ok fs (comps s))": "whether deleting a directory as a file succeeds is the system's choice; the claim holds of both answers",
"PortFile|freeFor|| some (.file _) => repl && n != .dir|| some (.file _) => repl || n != .dir": "whether a rename may replace is the system's choice; the claim holds of both answers",
"PortFile|xrLoop|| some (r, fs1) => if r < 0 then some (false, fs1) else xrLoop rec ok s l fs1|| some (r, fs1) => if r < 0 then some (true, fs1) else xrLoop rec ok s l fs1": "equivalent: a directory whose child could not be removed is not empty, so removing it fails all the same",
"PortFile|fsize|| some .dir => 0|| some .dir => 1": "the size of a directory is unspecified",
"RouteKnow|CState.init|def CState.init : CState := ⟨Route.State.init, fun _ => ⟨0, 0⟩⟩|def CState.init : CState := ⟨Route.State.init, fun _ => ⟨1, 0⟩⟩": "the initial flags of the route buffers are written before they are read: they are not observable",
"RouteKnow|CState.init|def CState.init : CState := ⟨Route.State.init, fun _ => ⟨0, 0⟩⟩|def CState.init : CState := ⟨Route.State.init, fun _ => ⟨0, 1⟩⟩": "the initial flags of the route buffers are written before they are read: they are not observable",
"RouteKnow|step|| .unsubscribe (some q) => if s.base.subscriber ≠ some q then s.cell else fun _ => ⟨0, 0⟩|| .unsubscribe (some q) => if s.base.subscriber ≠ some q then s.cell else fun _ => ⟨0, 1⟩": "the initial flags of the route buffers are written before they are read: they are not observable",
"RouteKnow|step|| .unsubscribe (some q) => if s.base.subscriber ≠ some q then s.cell else fun _ => ⟨0, 0⟩|| .unsubscribe (some q) => if s.base.subscriber ≠ some q then s.cell else fun _ => ⟨1, 0⟩": "the initial flags of the route buffers are written before they are read: they are not observable",
"PortIo|sysInet6|def sysInet6 : Nat := 23|def sysInet6 : Nat := 24": "the number the system gives the family is the system's; the claims hold for any two different non-zero numbers",
"PortIo|sysInet|def sysInet : Nat := 2|def sysInet : Nat := 3": "the number the system gives the family is the system's; the claims hold for any two different non-zero numbers",
"PoolInit|step|| some x => if x.ready = true ∧ x.pos = .out ∧ x.todo = [] then some (setT s t { x with todo := l })|| some x => if x.ready = true ∧ x.pos = .out ∧ x.todo = [] then some (setT s t x)": "the next step's record is written before it is read: only an example sees the difference",
"PrefixGet|write|bad := s.bad || !x.live }|bad := s.bad && !x.live }": "equivalent under the invariant: blocks in use are always live, so no access of freed memory is there to be recorded (proved as C215_memory)",
"PrefixGet|free|| some x => { s with blocks := s.blocks.set b { x with live := false }, bad := s.bad || !x.live }|| some x => { s with blocks := s.blocks.set b { x with live := false }, bad := s.bad && !x.live }": "equivalent under the invariant: blocks in use are always live, so no access of freed memory is there to be recorded (proved as C215_memory)",
"PrefixGet|free|| some x => { s with blocks := s.blocks.set b { x with live := false }, bad := s.bad || !x.live }|| some x => { s with blocks := s.blocks.set b { x with live := false } }": "equivalent under the invariant: blocks in use are always live, so no access of freed memory is there to be recorded (proved as C215_memory)",
"PrefixGet|free|| none => { s with bad := true }|| none => s": "the branch cannot be reached: the pointer always names a block",
"PrefixGet|write|| none => { s with bad := true }|| none => { s with bad := false }": "the branch cannot be reached: the pointer always names a block",
"PrefixGet|write|| none => { s with bad := true }|| none => s": "the branch cannot be reached: the pointer always names a block",
"PrefixGet|free|| none => { s with bad := true }|| none => { s with bad := false }": "the branch cannot be reached: the pointer always names a block",
"DynSelf|rdAt|(s.heap p).bind fun b => if off + n ≤ b.length then some ((b.drop off).take n) else none|(s.heap p).bind fun b => if off - n ≤ b.length then some ((b.drop off).take n) else none": "offsets are always within the block (proved), so the weaker check never lets anything pass",
"MainQ|init0|{ cell := .free, next := 1, ph := fun _ => .absent, isM := fun _ => false, starter := fun _ => 0, prot := fun _ => false, term := fun _ => false|{ cell := .free, next := 1, ph := fun _ => .absent, isM := fun _ => false, starter := fun _ => 0, prot := fun _ => true, term := fun _ => false": "whether a handle not yet made is protected is written when it is made, before it is read",
"PortLock|heapBlocks|| .rtl8713 | .xr872 | .asr1606 => 0|| .rtl8713 | .xr872 | .asr1606 => 1": "how many blocks a port takes for a mutex: read alike when it is made and when it is given back, so the claim (nothing is left) holds of either; the number itself is shown by an example",
"PortLock|heapBlocks|| .sprd8910ff | .sprdT117 | .sprdW117 | .sprdW217 | .sprdW307 | .sprdW337 => 0|| .sprd8910ff | .sprdT117 | .sprdW117 | .sprdW217 | .sprdW307 | .sprdW337 => 1": "how many blocks a port takes for a mutex: read alike when it is made and when it is given back, so the claim (nothing is left) holds of either; the number itself is shown by an example",
"PortLock|heapBlocks|| _ => 1|| _ => 2": "how many blocks a port takes for a mutex: read alike when it is made and when it is given back, so the claim (nothing is left) holds of either; the number itself is shown by an example",
"PktMem|packet|let len := buff c - (tail - head)|let len := buff c + (tail - head)": "for datagrams nothing is kept between packets (rData = rTail whenever a packet is read), so the difference is 0 and the edit changes nothing",
"PktMem|packet|let tail := head + (s.rTail - s.rData)|let tail := head - (s.rTail - s.rData)": "for datagrams nothing is kept between packets (rData = rTail whenever a packet is read), so the difference is 0 and the edit changes nothing",
"MainEnd|step|| .destroy i => updQ s i (fun q => !q.pool && !q.gone) fun q => { q with term := true }|| .destroy i => updQ s i (fun q => q.pool && !q.gone) fun q => { q with term := true }": "which queues the user may destroy besides: the claims are about the wait for the end and hold in either case",
"MainEnd|step|| .destroy i => updQ s i (fun q => !q.pool && !q.gone) fun q => { q with term := true }|| .destroy i => updQ s i (fun q => !q.pool || !q.gone) fun q => { q with term := true }": "which queues the user may destroy besides: the claims are about the wait for the end and hold in either case",
"MainEnd|init0|def init0 : St := { ph := .up, run := .idle, pend := [], term := false, qs := [] }|def init0 : St := { ph := .up, run := .idle, pend := [], term := true, qs := [] }": "a main queue that was told to end before anything was queued: the claims hold of it too",
"PoolCall|pick|if (p.es[i]?.map busy).getD false = true ∧ p.es.length < p.size then|if (p.es[i]?.map busy).getD true = true ∧ p.es.length < p.size then": "the default is never read: the index comes from the table itself",
"PoolCall|best|| none => some 0|| none => some 1": "the default is never read: the index comes from the table itself",
"PoolDone|step|some { s with cnt := s.cnt - 1, bad := s.bad || decide (0 < s.cntFreed),|some { s with cnt := s.cnt - 1, bad := s.bad || decide (1 < s.cntFreed),": "the edited term is the model's own monitor of memory use, not the program: the program is unchanged and every claim stays true",
"PoolDone|step|some { s with log := s.log ++ [.invoked o c.argv], bad := s.bad || decide (0 < s.nameFreed), pcs := s.pcs.set i (.complete o) }|some { s with log := s.log ++ [.invoked o c.argv], bad := s.bad && decide (0 < s.nameFreed), pcs := s.pcs.set i (.complete o) }": "the edited term is the model's own monitor of memory use, not the program: the program is unchanged and every claim stays true",
"PoolDone|step|bad := s.bad || decide (0 < s.nameFreed), pcs := s.pcs.set i .free }|bad := s.bad && decide (0 < s.nameFreed), pcs := s.pcs.set i .free }": "the edited term is the model's own monitor of memory use, not the program: the program is unchanged and every claim stays true",
"PoolDone|step|some { s with log := s.log ++ [.invoked o c.argv], bad := s.bad || decide (0 < s.nameFreed), pcs := s.pcs.set i (.complete o) }|some { s with log := s.log ++ [.invoked o c.argv], bad := s.bad || decide (1 < s.nameFreed), pcs := s.pcs.set i (.complete o) }": "the edited term is the model's own monitor of memory use, not the program: the program is unchanged and every claim stays true",
"PoolDone|step|some { s with log := s.log ++ [.invoked o c.argv], bad := s.bad || decide (0 < s.nameFreed), pcs := s.pcs.set i (.complete o) }|some { s with log := s.log ++ [.invoked o c.argv], pcs := s.pcs.set i (.complete o) }": "the edited term is the model's own monitor of memory use, not the program: the program is unchanged and every claim stays true"
}