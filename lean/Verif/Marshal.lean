/-!
  Model of lib/marshalling.c:187-575 (marshal) and 594-970 (unmarshal).

  A type descriptor (aosl_type_info_t) is a node of a graph `Env`: `child` is the index of another node, so
  recursive descriptors (linked lists, trees) are covered. An object of the described type is a `Val`: what
  is in memory at the described places, without addresses. The packet-buffer chain is the list of its
  segments; a segment is its payload and its tail room (C09-C11 justify this view of a psb).
  `be` says whether the machine is big-endian.
  Not modelled: failing allocations, descriptors of structures larger than memory.
-/
namespace Verif.Marshal

/-- Belongs to the model of lib/marshalling.c:187-575. -/
abbrev Byte := UInt8

/-- The described memory. `absent` stands for a field that is not present (see `Field`). Belongs to the model of lib/marshalling.c:187-575. -/
inductive Val where
  | unit
  | num (n : Nat)
  | bytes (bs : List Byte)
  | ptr (v : Option Val)
  | str (s : Option (List Byte))
  | struct (vs : List Val)
  | arr (vs : List Val)
  | absent

/-- A field of a structure: its descriptor and the predicate `is_have`, if any, aosl_marshalling.h:206.
    Simplification: the predicate looks at the fields before this one. -/
structure Field where
  node : Nat
  isHave : Option (List Val → Bool)

/-- marshalling.c:402 and 709: `type->is_have && !type->is_have (...)` -/
def Field.has (fd : Field) (prev : List Val) : Bool :=
  match fd.isHave with | none => true | some p => p prev

/-- aosl_marshalling.h:29-51, 199-208. `int k`: INT8..INT64, FLOAT, DOUBLE (k bytes); `raw k`: V4_IPADDR (4),
    V6_IPADDR (16); `struct fs`: the fields before the VOID terminator; the `cap`s are `array_size`.
    DYNAMIC_STRING is `dynBytes`: it differs by a NUL after the payload only. -/
inductive Node where
  | void
  | int (k : Nat)
  | raw (k : Nat)
  | pointer (child : Nat)
  | reference (child : Nat)
  | string
  | struct (fields : List Field)
  | fixedBytes (n : Nat)
  | varBytes (cap : Nat)
  | bytesNil (cap : Nat)
  | dynBytes
  | fixedArray (n : Nat) (child : Nat)
  | varArray (cap : Nat) (child : Nat)
  | dynArray (child : Nat)
  /-- an unknown type id -/
  | unknown

/-- Belongs to the model of lib/marshalling.c:187-575. -/
abbrev Env := Nat → Node

/-- The outcomes, in the model of lib/marshalling.c:187-575. -/
inductive Err where
  | emsgsize | enospc | einval
  deriving DecidableEq, Repr

/-- Outcome of a call. `ub`: memory is read outside the objects; `bogus`: `goto __err` with a non-negative
    `ret`, that is, success is reported though the object was not processed; `more`: the given recursion
    depth did not suffice (an artefact of the model, see `Returns`). Belongs to the model of lib/marshalling.c:187-575. -/
inductive Out (α : Type) where
  | ok (a : α)
  | err (e : Err)
  | ub
  | bogus
  | more
  deriving DecidableEq

/-- Belongs to the model of lib/marshalling.c:187-575. -/
def Out.bind {α β : Type} (x : Out α) (f : α → Out β) : Out β :=
  match x with
  | .ok a => f a
  | .err e => .err e
  | .ub => .ub
  | .bogus => .bogus
  | .more => .more

/-! ### Integers in memory -/

/-- Belongs to the model of lib/marshalling.c:187-575. -/
def leBytes : Nat → Nat → List Byte
  | 0, _ => []
  | k + 1, n => UInt8.ofNat (n % 256) :: leBytes k (n / 256)

/-- Belongs to the model of lib/marshalling.c:187-575. -/
def ofLe : List Byte → Nat
  | [] => 0
  | b :: bs => b.toNat + 256 * ofLe bs

/-- The bytes of a k-byte integer in memory. __encode_intN/__decode_intN are the identity on both kinds of
    machine (marshalling.c:190-217: cpu_to_le on little-endian, cpu_to_be on big-endian machines). -/
def hostBytes (be : Bool) (k n : Nat) : List Byte := if be then (leBytes k n).reverse else leBytes k n
/-- Belongs to the model of lib/marshalling.c:187-575. -/
def ofHost (be : Bool) (bs : List Byte) : Nat := if be then ofLe bs.reverse else ofLe bs

/-- marshalling.c:219-308 get_type_size, only whether it succeeds (the size itself is not needed);
    the first argument bounds the recursion depth, none: not enough -/
def sizeOk (env : Env) : Nat → Nat → Option Bool
  | 0, _ => none
  | f + 1, t =>
    match env t with
    | .reference c => sizeOk env f c
    | .fixedArray _ c => sizeOk env f c
    | .varArray _ c => sizeOk env f c
    | .unknown => some false
    | _ => some true

/-! ### Marshalling -/

/-- Data of the model of lib/marshalling.c:187-575. -/
structure Seg where
  data : List Byte
  room : Nat

/-- The chain while marshalling: segments before the current one, the current one, the ones after. Belongs to the model of lib/marshalling.c:187-575. -/
structure Cur where
  before : List Seg
  cur : Seg
  after : List Seg

/-- all segments in order. Belongs to the model of lib/marshalling.c:187-575. -/
def Cur.chain (c : Cur) : List Seg := c.before ++ c.cur :: c.after

/-- aosl_psb.h:24 -/
abbrev PKT : Nat := 4096

/-- `psb_put` of as much of `bs` as fits. Belongs to the model of lib/marshalling.c:187-575. -/
def Seg.fill (s : Seg) (bs : List Byte) : Seg := ⟨s.data ++ bs.take s.room, s.room - bs.length⟩

/-- the segments allocated when the chain is exhausted, filled. Belongs to the model of lib/marshalling.c:187-575. -/
def freshSegs (bs : List Byte) : List Seg :=
  if h : bs = [] then [] else ⟨bs.take PKT, PKT - bs.length⟩ :: freshSegs (bs.drop PKT)
termination_by bs.length
decreasing_by
  have : 0 < bs.length := by cases bs <;> simp_all
  simp only [List.length_drop, PKT]; omega

/-- the segments after filling and the number of segments left behind: `__CHECK_AND_ENCODE_BYTES`,
    marshalling.c:370-394, and `__CHECK_AND_ENCODE_BASETYPE` (327-361), which does the same for the bytes of
    an integer -/
def putSegs : Seg → List Seg → List Byte → List Seg × Nat
  | s, rest, bs =>
    if bs.length ≤ s.room then (s.fill bs :: rest, 0)
    else
      match rest with
      | s' :: rest' =>
        let (l, n) := putSegs s' rest' (bs.drop s.room)
        (s.fill bs :: l, n + 1)
      | [] =>
        let l := freshSegs (bs.drop s.room)
        (s.fill bs :: l, l.length)

/-- Belongs to the model of lib/marshalling.c:187-575. -/
def putBytes (c : Cur) (bs : List Byte) : Cur :=
  let (l, n) := putSegs c.cur c.after bs
  match l.drop n with
  | s :: rest => ⟨c.before ++ l.take n, s, rest⟩
  | [] => c

/-- a step of marshalling: the chain afterwards and the number of bytes produced. Belongs to the model of lib/marshalling.c:187-575. -/
abbrev Marsh := Out (Cur × Nat)

/-- marshalling.c:481-493: the fields of a structure, with `is_have` (403-405) -/
def mFields (g : Nat → Val → Cur → Marsh) : List Field → List Val → List Val → Cur → Marsh
  | [], _, [], c => .ok (c, 0)
  | fd :: fs, prev, v :: vs, c =>
    if fd.has prev = true then
      (g fd.node v c).bind fun (c', n) =>
        (mFields g fs (prev ++ [v]) vs c').bind fun (c'', m) => .ok (c'', n + m)
    else (mFields g fs (prev ++ [.absent]) vs c)
  | _, _, _, _ => .ub

/-- the elements of an array. Belongs to the model of lib/marshalling.c:187-575. -/
def mElems (g : Val → Cur → Marsh) : List Val → Cur → Marsh
  | [], c => .ok (c, 0)
  | v :: vs, c => (g v c).bind fun (c', n) => (mElems g vs c').bind fun (c'', m) => .ok (c'', n + m)

/-- put and count. Belongs to the model of lib/marshalling.c:187-575. -/
def put (c : Cur) (bs : List Byte) : Marsh := .ok (putBytes c bs, bs.length)

/-- marshalling.c:310-575 _____marshal. `junk`: the uninitialised `helper_type.is_have` (436, 459) is NULL;
    otherwise an arbitrary address is called. A value that does not have the described type cannot occur
    in memory (`ub`). -/
def marshal (be junk : Bool) (env : Env) : Nat → Nat → Val → Cur → Marsh
  | 0, _, _, _ => .more
  | f + 1, t, v, c =>
    match env t, v with
    | .void, .unit => .ok (c, 0)
    | .int k, .num n => put c (hostBytes be k n)
    | .raw _, .bytes bs => put c bs
    | .pointer ch, .ptr o =>
      if junk = false then .ub
      else
        match o with
        | none => put c [0]
        | some v =>
          (put c [1]).bind fun (c', n) => (marshal be junk env f ch v c').bind fun (c'', m) => .ok (c'', n + m)
    | .reference ch, v => marshal be junk env f ch v c
    | .string, .str o =>
      if junk = false then .ub
      else
        match o with
        | none => put c [0]
        | some s =>
          -- val = strlen + 1 in 16 bits
          (put c [1]).bind fun (c', n) => (put c' ((s ++ [0]).take ((s.length + 1) % 65536))).bind fun (c'', m) => .ok (c'', n + m)
    | .struct fs, .struct vs => mFields (marshal be junk env f) fs [] vs c
    | .fixedBytes n, .bytes bs => if bs.length = n then put c bs else .ub
    | .varBytes cap, .bytes bs =>
      -- no check of the count against array_size
      if bs.length ≤ cap ∧ bs.length < 65536 then
        (put c (hostBytes be 2 bs.length)).bind fun (c', n) => (put c' bs).bind fun (c'', m) => .ok (c'', n + m)
      else .ub
    | .bytesNil cap, .str (some s) =>
      let val := (s.length + 1) % 65536
      if val > cap then .err .einval else put c ((s ++ [0]).take val)
    | .dynBytes, .bytes bs =>
      (put c (hostBytes be 2 bs.length)).bind fun (c', n) => (put c' bs).bind fun (c'', m) => .ok (c'', n + m)
    | .fixedArray n ch, .arr vs =>
      match sizeOk env f ch with
      | none => .more
      | some false => .bogus
      -- the 16-bit index never reaches a larger array_size
      | some true => if vs.length = n ∧ n < 65536 then mElems (marshal be junk env f ch) vs c else .ub
    | .varArray cap ch, .arr vs =>
      match sizeOk env f ch with
      | none => .more
      | some false => .bogus
      | some true =>
        if vs.length ≤ cap ∧ vs.length < 65536 then
          (put c (hostBytes be 2 vs.length)).bind fun (c', n) =>
            (mElems (marshal be junk env f ch) vs c').bind fun (c'', m) => .ok (c'', n + m)
        else .ub
    | .dynArray ch, .arr vs =>
      (put c (hostBytes be 2 vs.length)).bind fun (c', n) =>
        if vs = [] then .ok (c', n)
        else
          match sizeOk env f ch with
          | none => .more
          | some false => .err .einval
          | some true => (mElems (marshal be junk env f ch) vs c').bind fun (c'', m) => .ok (c'', n + m)
    | .unknown, _ => .err .einval
    | _, _ => .ub

/-! ### Unmarshalling -/

/-- the payloads of the current segment and of those after it. Belongs to the model of lib/marshalling.c:187-575. -/
abbrev Chain := List (List Byte)

/-- `__CHECK_AND_DECODE_BYTES` (671-690), `__CHECK_AND_DECODE_BASETYPE` (626-667): take n bytes -/
def getBytes : Chain → Nat → Out (List Byte × Chain)
  | [], _ => .ub
  | s :: rest, n =>
    if n ≤ s.length then .ok (s.take n, s.drop n :: rest)
    else
      match rest with
      | [] => .err .emsgsize
      | s' :: rest' => (getBytes (s' :: rest') (n - s.length)).bind fun (bs, c) => .ok (s ++ bs, c)

/-- marshalling.c:594-619 SAFE_STRSIZE: after the end of a segment the first byte of the next one is read
    without checking that there is one -/
def strSize : Chain → Out Nat
  | [] => .ub
  | s :: rest =>
    match s.findIdx? (· == 0) with
    | some i => .ok (i + 1)
    | none =>
      match rest with
      | [] => .err .emsgsize
      | s' :: rest' => if s' = [] then .ub else (strSize (s' :: rest')).bind fun n => .ok (s.length + n)

/-- Belongs to the model of lib/marshalling.c:187-575. -/
abbrev Unm (α : Type) := Out (α × Chain × Nat)

/-- Belongs to the model of lib/marshalling.c:187-575. -/
def get (c : Chain) (n : Nat) : Unm (List Byte) := (getBytes c n).bind fun (bs, c') => .ok (bs, c', n)

/-- What is in the receiver's memory after the bytes `bs` of a string are copied: a string, or, if there is
    no NUL among them, an unterminated array. Belongs to the model of lib/marshalling.c:187-575. -/
def cstr (bs : List Byte) : Val := if bs.contains 0 then .str (some (bs.takeWhile (· != 0))) else .bytes bs

/-- 793-803 -/
def uFields (g : Nat → Chain → Unm Val) : List Field → List Val → Chain → Unm (List Val)
  | [], _, c => .ok ([], c, 0)
  | fd :: fs, prev, c =>
    if fd.has prev = true then
      (g fd.node c).bind fun (v, c', n) =>
        (uFields g fs (prev ++ [v]) c').bind fun (vs, c'', m) => .ok (v :: vs, c'', n + m)
    else (uFields g fs (prev ++ [.absent]) c).bind fun (vs, c', m) => .ok (.absent :: vs, c', m)

/-- Belongs to the model of lib/marshalling.c:187-575. -/
def uElems (g : Chain → Unm Val) : Nat → Chain → Unm (List Val)
  | 0, c => .ok ([], c, 0)
  | k + 1, c =>
    (g c).bind fun (v, c', n) => (uElems g k c').bind fun (vs, c'', m) => .ok (v :: vs, c'', n + m)

/-- marshalling.c:621-970 _____unmarshal -/
def unmarshal (be junk : Bool) (env : Env) : Nat → Nat → Chain → Unm Val
  | 0, _, _ => .more
  | f + 1, t, c =>
    match env t with
    | .void => .ok (.unit, c, 0)
    | .int k => (get c k).bind fun (bs, c', n) => .ok (.num (ofHost be bs), c', n)
    | .raw k => (get c k).bind fun (bs, c', n) => .ok (.bytes bs, c', n)
    | .pointer ch =>
      if junk = false then .ub
      else
        (get c 1).bind fun (b, c', n) =>
          if b = [0] then .ok (.ptr none, c', n)
          else
            match sizeOk env f ch with
            | none => .more
            | some false => .bogus
            | some true => (unmarshal be junk env f ch c').bind fun (v, c'', m) => .ok (.ptr (some v), c'', n + m)
    | .reference ch => unmarshal be junk env f ch c
    | .string =>
      if junk = false then .ub
      else
        (get c 1).bind fun (b, c', n) =>
          if b = [0] then .ok (.str none, c', n)
          else
            (strSize c').bind fun sz =>
              -- val is a uint16_t
              (get c' (sz % 65536)).bind fun (bs, c'', m) => .ok (cstr bs, c'', n + m)
    | .struct fs => (uFields (unmarshal be junk env f) fs [] c).bind fun (vs, c', n) => .ok (.struct vs, c', n)
    | .fixedBytes k => (get c k).bind fun (bs, c', n) => .ok (.bytes bs, c', n)
    | .varBytes cap =>
      (get c 2).bind fun (b, c', n) =>
        if ofHost be b > cap then .err .enospc
        else (get c' (ofHost be b)).bind fun (bs, c'', m) => .ok (.bytes bs, c'', n + m)
    | .bytesNil cap =>
      (strSize c).bind fun sz =>
        if sz % 65536 > cap then .err .enospc
        else (get c (sz % 65536)).bind fun (bs, c'', m) => .ok (cstr bs, c'', m)
    | .dynBytes =>
      (get c 2).bind fun (b, c', n) =>
        (get c' (ofHost be b)).bind fun (bs, c'', m) => .ok (.bytes bs, c'', n + m)
    | .fixedArray k ch =>
      match sizeOk env f ch with
      | none => .more
      | some false => .bogus
      | some true =>
        if k < 65536 then (uElems (unmarshal be junk env f ch) k c).bind fun (vs, c', n) => .ok (.arr vs, c', n)
        else .ub
    | .varArray cap ch =>
      match sizeOk env f ch with
      | none => .more
      | some false => .bogus
      | some true =>
        (get c 2).bind fun (b, c', n) =>
          if ofHost be b > cap then .err .enospc
          else (uElems (unmarshal be junk env f ch) (ofHost be b) c').bind fun (vs, c'', m) => .ok (.arr vs, c'', n + m)
    | .dynArray ch =>
      (get c 2).bind fun (b, c', n) =>
        if ofHost be b = 0 then .ok (.arr [], c', n)
        else
          match sizeOk env f ch with
          | none => .more
          | some false => .err .einval
          | some true =>
            (uElems (unmarshal be junk env f ch) (ofHost be b) c').bind fun (vs, c'', m) => .ok (.arr vs, c'', n + m)
    | .unknown => .err .einval

end Verif.Marshal
