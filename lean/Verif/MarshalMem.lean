import Verif.Marshal

/-!
  Model of lib/marshalling.c: aosl_init_typed_obj (982-1064), aosl_unmarshal writing into memory, with its
  allocations (621-970), and aosl_fini_typed_obj (1077-1162).

  `Marshal.lean` says which value is decoded. Here an object is the memory it occupies: a tree of cells, where
  `junk` is memory that nobody has written, and a pointer is the number of an allocation together with what is
  in it. The heap is the list of live allocations. Descriptors, wire data and `get_type_size` are those of
  `Marshal.lean`; `junk = true` there (the uninitialised `helper_type.is_have` happens to be NULL) is assumed
  throughout. Simplification: the count variable of a VAR_ARRAY is part of the array's own cell (the
  descriptor may put it anywhere in the enclosing object).
-/
namespace Verif.MarshalMem
open Verif.Marshal

/-- The memory of an object. -/
inductive Cell where
  /-- uninitialised memory -/
  | junk
  /-- initialised memory without pointers -/
  | base (v : Val)
  /-- a NULL pointer -/
  | null
  /-- a pointer to allocation `id`, which holds `c` -/
  | ptr (id : Nat) (c : Cell)
  /-- a pointer to allocation `id`, which holds bytes -/
  | str (id : Nat) (bs : List Byte)
  | struct (fs : List Cell)
  /-- FIXED_ARRAY -/
  | arr (es : List Cell)
  /-- VAR_ARRAY: the count variable and the array_size elements -/
  | varr (count : Nat) (es : List Cell)
  /-- aosl_dynamic_bytes_t / aosl_dynamic_string_t (aosl_marshalling.h:60-96): count, allocated, values.
      `none` for `values`: NULL or never written (told apart by nobody, as it is only used when
      `allocated` is positive; using it then counts as undefined behaviour here) -/
  | dynB (count allocated : Nat) (values : Option (Nat × List Byte))
  /-- aosl_dynamic_array_t: count, allocated, values and what is there -/
  | dynA (count allocated : Nat) (values : Option Nat) (es : List Cell)

/-- The heap: the allocations that are live, the number of the next one, and whether the n-th allocation
    succeeds. Belongs to the model of lib/marshalling.c:621-1162, aosl_marshalling.h:60-96. -/
structure Heap where
  live : List Nat
  next : Nat
  grants : Nat → Bool

/-- aosl_malloc. Belongs to the model of lib/marshalling.c:621-1162, aosl_marshalling.h:60-96. -/
def Heap.malloc (h : Heap) : Option Nat × Heap :=
  if h.grants h.next = true then (some h.next, { h with live := h.next :: h.live, next := h.next + 1 })
  else (none, { h with next := h.next + 1 })

/-- Outcome of a call. Belongs to the model of lib/marshalling.c:621-1162, aosl_marshalling.h:60-96. -/
inductive Res (α : Type) where
  | ok (a : α)
  | err (e : Err)
  | enomem
  | ub
  /-- `goto __err` with a non-negative `ret` (see `Marshal.Out`) -/
  | bogus
  /-- recursion depth exhausted (an artefact of the model) -/
  | more

/-- Belongs to the model of lib/marshalling.c:621-1162, aosl_marshalling.h:60-96. -/
def Res.map {α β : Type} (f : α → β) : Res α → Res β
  | .ok a => .ok (f a)
  | .err e => .err e
  | .enomem => .enomem
  | .ub => .ub
  | .bogus => .bogus
  | .more => .more

/-! ### aosl_init_typed_obj -/

/-- the cells of the members of a structure or array at an address whose memory is `c`. Belongs to the model of lib/marshalling.c:621-1162, aosl_marshalling.h:60-96. -/
def members (n : Nat) : Cell → List Cell
  | .struct l => (l ++ List.replicate n Cell.junk).take n
  | .arr l => (l ++ List.replicate n Cell.junk).take n
  | .varr _ l => (l ++ List.replicate n Cell.junk).take n
  | _ => List.replicate n .junk

/-- apply to corresponding elements; `none` as soon as one is `none`. Belongs to the model of lib/marshalling.c:621-1162, aosl_marshalling.h:60-96. -/
def zipM (g : Nat → Cell → Option Cell) : List Nat → List Cell → Option (List Cell)
  | t :: ts, c :: cs => (g t c).bind fun x => (zipM g ts cs).map (x :: ·)
  | _, _ => some []

/-- lib/marshalling.c:982-1064 smart_init_typed_obj; `none`: recursion depth exhausted -/
def init (env : Env) : Nat → Nat → Cell → Option Cell
  | 0, _, _ => none
  | f + 1, t, c =>
    match env t with
    | .void => some c
    | .int _ => some (.base (.num 0))
    | .raw k => some (.base (.bytes (List.replicate k 0)))
    | .pointer _ => some .null
    | .reference ch => init env f ch c
    | .string => some .null
    | .struct fs => (zipM (init env f) (fs.map (·.node)) (members fs.length c)).map .struct
    | .fixedBytes n => some (.base (.bytes (List.replicate n 0)))
    | .varBytes _ => some (.base (.bytes []))
    | .bytesNil _ => some (.base (.str (some [])))
    | .dynBytes => some (.dynB 0 0 none)
    | .fixedArray n ch =>
      -- get_type_size (type->child) < 0: break
      (sizeOk env f ch).bind fun b =>
        if b = true then (zipM (init env f) (List.replicate n ch) (members n c)).map .arr else some c
    -- only the count: the elements keep what they have
    | .varArray cap _ => some (.varr 0 (members cap c))
    | .dynArray _ => some (.dynA 0 0 none [])
    | .unknown => some c

/-! ### aosl_unmarshal -/

/-- Memory, rest of the data, heap and outcome after a step. Belongs to the model of lib/marshalling.c:621-1162, aosl_marshalling.h:60-96. -/
structure R where
  cell : Cell
  chain : Chain
  heap : Heap
  res : Res (Val × Nat)

/-- Data of the model of lib/marshalling.c:621-1162, aosl_marshalling.h:60-96. -/
structure Rs where
  cells : List Cell
  chain : Chain
  heap : Heap
  res : Res (List Val × Nat)

/-- marshalling.c:793-803 with 709 `is_have`: a field that is not present keeps its memory -/
def mFieldsU (g : Nat → Cell → Chain → Heap → R) : List Field → List Val → List Cell → Chain → Heap → Rs
  | fd :: fs, prev, c :: cs, s, h =>
    if fd.has prev = true then
      let r := g fd.node c s h
      match r.res with
      | .ok (v, n) =>
        let q := mFieldsU g fs (prev ++ [v]) cs r.chain r.heap
        ⟨r.cell :: q.cells, q.chain, q.heap, q.res.map fun (vs, m) => (v :: vs, n + m)⟩
      | x => ⟨r.cell :: cs, r.chain, r.heap, x.map fun _ => ([], 0)⟩
    else
      let q := mFieldsU g fs (prev ++ [.absent]) cs s h
      ⟨c :: q.cells, q.chain, q.heap, q.res.map fun (vs, m) => (.absent :: vs, m)⟩
  | _, _, cs, s, h => ⟨cs, s, h, .ok ([], 0)⟩

/-- `k` elements of an array (902-908, 925-931, 954-960); the memory after them stays -/
def mElemsU (g : Cell → Chain → Heap → R) : Nat → List Cell → Chain → Heap → Rs
  | k + 1, c :: cs, s, h =>
    let r := g c s h
    match r.res with
    | .ok (v, n) =>
      let q := mElemsU g k cs r.chain r.heap
      ⟨r.cell :: q.cells, q.chain, q.heap, q.res.map fun (vs, m) => (v :: vs, n + m)⟩
    | x => ⟨r.cell :: cs, r.chain, r.heap, x.map fun _ => ([], 0)⟩
  | _, cs, s, h => ⟨cs, s, h, .ok ([], 0)⟩

/-- go on after a successful read of the data; otherwise (`goto __err`) stop with the memory `c`. Belongs to the model of lib/marshalling.c:621-1162, aosl_marshalling.h:60-96. -/
def after {α : Type} (x : Out α) (c : Cell) (s : Chain) (h : Heap) (k : α → R) : R :=
  match x with
  | .ok a => k a
  | .err e => ⟨c, s, h, .err e⟩
  | .ub => ⟨c, s, h, .ub⟩
  | .bogus => ⟨c, s, h, .bogus⟩
  | .more => ⟨c, s, h, .more⟩

/-- go on after get_type_size, with `bad` as the way to fail. Belongs to the model of lib/marshalling.c:621-1162, aosl_marshalling.h:60-96. -/
def sized (x : Option Bool) (c : Cell) (s : Chain) (h : Heap) (bad k : R) : R :=
  match x with
  | none => ⟨c, s, h, .more⟩
  | some false => bad
  | some true => k

/-- go on after aosl_malloc; on failure -AOSL_ENOMEM with the memory `c`. Belongs to the model of lib/marshalling.c:621-1162, aosl_marshalling.h:60-96. -/
def alloc (c : Cell) (s : Chain) (h : Heap) (k : Nat → Heap → R) : R :=
  match h.malloc with
  | (none, h') => ⟨c, s, h', .enomem⟩
  | (some id, h') => k id h'

/-- memory without pointers is written by decoding `n` bytes. Belongs to the model of lib/marshalling.c:621-1162, aosl_marshalling.h:60-96. -/
def plain (c : Cell) (s : Chain) (h : Heap) (n : Nat) (v : List Byte → Val) : R :=
  after (get s n) c s h fun (bs, s', m) => ⟨.base (v bs), s', h, .ok (v bs, m)⟩

/-- lib/marshalling.c:621-970 _____unmarshal into the memory `c`. `be`: big-endian machine; `ds t`: whether a
    `dynBytes` descriptor is a DYNAMIC_STRING. -/
def unm (be : Bool) (env : Env) (ds : Nat → Bool) : Nat → Nat → Cell → Chain → Heap → R
  | 0, _, c, s, h => ⟨c, s, h, .more⟩
  | f + 1, t, c, s, h =>
    match env t with
    | .void => ⟨c, s, h, .ok (.unit, 0)⟩
    | .int k => plain c s h k fun bs => .num (ofHost be bs)
    | .raw k => plain c s h k .bytes
    | .fixedBytes k => plain c s h k .bytes
    | .pointer ch =>
      after (get s 1) c s h fun (b, s', n) =>
        if b = [0] then ⟨.null, s', h, .ok (.ptr none, n)⟩
        else
          sized (sizeOk env f ch) c s h ⟨c, s, h, .bogus⟩ <| alloc c s h fun id h' =>
            -- the pointer is stored before the child is decoded into fresh memory
            let r := unm be env ds f ch .junk s' h'
            ⟨.ptr id r.cell, r.chain, r.heap, r.res.map fun (v, m) => (.ptr (some v), n + m)⟩
    | .reference ch => unm be env ds f ch c s h
    | .string =>
      after (get s 1) c s h fun (b, s', n) =>
        if b = [0] then ⟨.null, s', h, .ok (.str none, n)⟩
        else
          after (strSize s') c s h fun sz =>
            alloc c s h fun id h' =>
              after (get s' (sz % 65536)) (.str id []) s h' fun (bs, s'', m) =>
                ⟨.str id bs, s'', h', .ok (cstr bs, n + m)⟩
    | .struct fs =>
      let q := mFieldsU (unm be env ds f) fs [] (members fs.length c) s h
      ⟨.struct q.cells, q.chain, q.heap, q.res.map fun (vs, n) => (.struct vs, n)⟩
    | .varBytes cap =>
      after (get s 2) c s h fun (b, s', n) =>
        if ofHost be b > cap then ⟨c, s, h, .err .enospc⟩
        else
          after (get s' (ofHost be b)) c s h fun (bs, s'', m) =>
            ⟨.base (.bytes bs), s'', h, .ok (.bytes bs, n + m)⟩
    | .bytesNil cap =>
      after (strSize s) c s h fun sz =>
        if sz % 65536 > cap then ⟨c, s, h, .err .enospc⟩ else plain c s h (sz % 65536) cstr
    | .dynBytes =>
      after (get s 2) c s h fun (b, s', n) =>
        let val := ofHost be b
        let size := val + if ds t = true then 1 else 0
        if size = 0 then ⟨.dynB 0 0 none, s', h, .ok (.bytes [], n)⟩
        else
          alloc (.dynB 0 0 none) s h fun id h' =>
            -- `allocated` is a uint16_t (874)
            after (get s' val) (.dynB val (size % 65536) (some (id, []))) s h' fun (bs, s'', m) =>
              ⟨.dynB val (size % 65536) (some (id, bs)), s'', h', .ok (.bytes bs, n + m)⟩
    | .fixedArray k ch =>
      sized (sizeOk env f ch) c s h ⟨c, s, h, .bogus⟩ <|
        -- the 16-bit index never reaches a larger array_size
        if k < 65536 then
          let q := mElemsU (unm be env ds f ch) k (members k c) s h
          ⟨.arr q.cells, q.chain, q.heap, q.res.map fun (vs, n) => (.arr vs, n)⟩
        else ⟨c, s, h, .ub⟩
    | .varArray cap ch =>
      sized (sizeOk env f ch) c s h ⟨c, s, h, .bogus⟩ <|
        after (get s 2) c s h fun (b, s', n) =>
          if ofHost be b > cap then ⟨c, s, h, .err .enospc⟩
          else
            -- the count is stored before the elements are decoded
            let q := mElemsU (unm be env ds f ch) (ofHost be b) (members cap c) s' h
            ⟨.varr (ofHost be b) q.cells, q.chain, q.heap, q.res.map fun (vs, m) => (.arr vs, n + m)⟩
    | .dynArray ch =>
      after (get s 2) c s h fun (b, s', n) =>
        let val := ofHost be b
        if val = 0 then ⟨.dynA 0 0 none [], s', h, .ok (.arr [], n)⟩
        else
          sized (sizeOk env f ch) c s h ⟨.dynA 0 0 none [], s, h, .err .einval⟩ <|
            alloc (.dynA 0 0 none []) s h fun id h' =>
              -- count, allocated and values are stored before the elements are decoded into fresh memory
              let q := mElemsU (unm be env ds f ch) val (List.replicate val .junk) s' h'
              ⟨.dynA val val (some id) q.cells, q.chain, q.heap, q.res.map fun (vs, m) => (.arr vs, n + m)⟩
    | .unknown => ⟨c, s, h, .err .einval⟩

/-! ### aosl_fini_typed_obj -/

/-- How a call ends. Belongs to the model of lib/marshalling.c:621-1162, aosl_marshalling.h:60-96. -/
inductive Fin where
  | ok
  /-- uninitialised memory used as a pointer or count, memory outside the object, or an invalid free -/
  | ub
  | more
  deriving DecidableEq

/-- Data of the model of lib/marshalling.c:621-1162, aosl_marshalling.h:60-96. -/
structure F where
  cell : Cell
  live : List Nat
  fin : Fin

/-- Data of the model of lib/marshalling.c:621-1162, aosl_marshalling.h:60-96. -/
structure Fs where
  cells : List Cell
  live : List Nat
  fin : Fin

/-- aosl_free of allocation `id`, after which the memory is `done`; undefined behaviour unless it is live. Belongs to the model of lib/marshalling.c:621-1162, aosl_marshalling.h:60-96. -/
def release (id : Nat) (l : List Nat) (c done : Cell) : F :=
  if id ∈ l then ⟨done, l.filter (· != id), .ok⟩ else ⟨c, l, .ub⟩

/-- the elements one after the other. Belongs to the model of lib/marshalling.c:621-1162, aosl_marshalling.h:60-96. -/
def finAll (g : Nat → Cell → List Nat → F) : List Nat → List Cell → List Nat → Fs
  | t :: ts, c :: cs, l =>
    let r := g t c l
    if r.fin = .ok then
      let q := finAll g ts cs r.live
      ⟨r.cell :: q.cells, q.live, q.fin⟩
    else ⟨r.cell :: cs, r.live, r.fin⟩
  | _, cs, l => ⟨cs, l, .ok⟩

/-- get_type_size fails: `break`. Belongs to the model of lib/marshalling.c:621-1162, aosl_marshalling.h:60-96. -/
def sizedF (x : Option Bool) (c : Cell) (l : List Nat) (bad k : F) : F :=
  match x with
  | none => ⟨c, l, .more⟩
  | some false => bad
  | some true => k

/-- lib/marshalling.c:1077-1162 smart_fini_typed_obj -/
def fini (env : Env) : Nat → Nat → Cell → List Nat → F
  | 0, _, c, l => ⟨c, l, .more⟩
  | f + 1, t, c, l =>
    match env t with
    | .pointer ch =>
      match c with
      | .null => ⟨.null, l, .ok⟩
      | .ptr id x =>
        let r := fini env f ch x l
        if r.fin = .ok then release id r.live (.ptr id r.cell) .null else ⟨.ptr id r.cell, r.live, r.fin⟩
      | _ => ⟨c, l, .ub⟩
    | .reference ch => fini env f ch c l
    | .string =>
      match c with
      | .null => ⟨.null, l, .ok⟩
      | .str id _ => release id l c .null
      | _ => ⟨c, l, .ub⟩
    | .struct fs =>
      let q := finAll (fini env f) (fs.map (·.node)) (members fs.length c) l
      ⟨.struct q.cells, q.live, q.fin⟩
    | .dynBytes =>
      match c with
      | .dynB _ allocated values =>
        if 0 < allocated then
          match values with
          | some (id, _) => release id l c (.dynB 0 0 none)
          | none => ⟨c, l, .ub⟩
        else ⟨.dynB 0 0 none, l, .ok⟩
      | _ => ⟨c, l, .ub⟩
    | .fixedArray n ch =>
      sizedF (sizeOk env f ch) c l ⟨c, l, .ok⟩ <|
        let q := finAll (fini env f) (List.replicate n ch) (members n c) l
        ⟨.arr q.cells, q.live, q.fin⟩
    | .varArray cap ch =>
      sizedF (sizeOk env f ch) c l ⟨c, l, .ok⟩ <|
        match c with
        | .varr count _ =>
          if count ≤ cap then
            let q := finAll (fini env f) (List.replicate count ch) (members cap c) l
            ⟨.varr (if q.fin = .ok then 0 else count) q.cells, q.live, q.fin⟩
          else ⟨c, l, .ub⟩
        | _ => ⟨c, l, .ub⟩
    | .dynArray ch =>
      match c with
      | .dynA count allocated values es =>
        if 0 < allocated then
          match values with
          | some id =>
            if 0 < count then
              sizedF (sizeOk env f ch) c l (release id l c (.dynA 0 0 none [])) <|
                if count ≤ es.length then
                  let q := finAll (fini env f) (List.replicate count ch) es l
                  if q.fin = .ok then release id q.live (.dynA count allocated values q.cells) (.dynA 0 0 none [])
                  else ⟨.dynA count allocated values q.cells, q.live, q.fin⟩
                else ⟨c, l, .ub⟩
            else release id l c (.dynA 0 0 none [])
          | none => ⟨c, l, .ub⟩
        else ⟨.dynA 0 0 none [], l, .ok⟩
      | _ => ⟨c, l, .ub⟩
    | _ => ⟨c, l, .ok⟩

end Verif.MarshalMem
