/-!
  Model of net/inet.c (text <-> binary internet addresses).

  A C string is the list of its characters before the NUL; a byte ≥ 0x80 is just a character that is
  neither a digit nor a separator.  Bytes of an address are natural numbers below 256.
  `sprintf "%u"` / `"%x"` are `Nat.toDigits 10` / `Nat.toDigits 16` (lower case, no leading zeros).
-/
namespace Verif.Inet

/-- A constant of the model of inet.c:25-305, net/sk_utils.c:1157-1251. -/
def ENOSPC : Nat := 1028
/-- A constant of the model of inet.c:25-305, net/sk_utils.c:1157-1251. -/
def EAFNOSUPPORT : Nat := 1097

/-- inet.c:29 the text produced by `sprintf (tmp, "%u.%u.%u.%u", ...)` -/
def quad (src : List Nat) : List Char :=
  Nat.toDigits 10 (src.getD 0 0) ++ '.' :: (Nat.toDigits 10 (src.getD 1 0) ++
    '.' :: (Nat.toDigits 10 (src.getD 2 0) ++ '.' :: Nat.toDigits 10 (src.getD 3 0)))

/-- inet.c:25-35 inet_ntop4: `none` is NULL with ENOSPC, otherwise the string copied to `dst`.
    `size` is an `int` (aosl_socklen_t). -/
def ntop4 (src : List Nat) (size : Int) : Option (List Char) :=
  if (quad src).length ≥ size then none else some (quad src)

/-- inet.c:44-46 -/
def words (src : List Nat) : List Nat :=
  (List.range 8).map fun i => (src.getD (2 * i) 0 <<< 8) ||| src.getD (2 * i + 1) 0

/-- `base = -1` is `none`; inet.c:40 -/
abbrev Run := Option (Nat × Nat)

/-- inet.c:58-61, 65-68: `if (best.base == -1 || cur.len > best.len) best = cur` when a run ends. -/
def better (best cur : Run) : Run :=
  match cur with
  | none => best
  | some (cb, cl) =>
    match best with
    | none => some (cb, cl)
    | some (bb, bl) => if cl > bl then some (cb, cl) else some (bb, bl)

/-- inet.c:51-68 the search for the longest run of zero words, starting at word `i`. -/
def runLoop (best cur : Run) (i : Nat) : List Nat → Run
  | [] => better best cur
  | w :: ws =>
    if w = 0 then
      match cur with
      | none => runLoop best (some (i, 1)) (i + 1) ws
      | some (cb, cl) => runLoop best (some (cb, cl + 1)) (i + 1) ws
    else runLoop (better best cur) none (i + 1) ws

/-- inet.c:47-70 -/
def bestRun (ws : List Nat) : Run :=
  match runLoop none none 0 ws with
  | some (b, l) => if l < 2 then none else some (b, l)
  | none => none

/-- inet.c:75-76 -/
def inside (best : Run) (i : Nat) : Bool :=
  match best with
  | none => false
  | some (b, l) => decide (i ≥ b) && decide (i < b + l)

/-- inet.c:77 -/
def isBase (best : Run) (i : Nat) : Bool :=
  match best with
  | none => false
  | some (b, _) => decide (i = b)

/-- inet.c:85-86 -/
def embedded (best : Run) (i w5 : Nat) : Bool :=
  decide (i = 6) &&
  match best with
  | none => false
  | some (b, l) => decide (b = 0) && (decide (l = 6) || (decide (l = 5) && decide (w5 = 0xffff)))

/-- sizeof tmp, inet.c:39 -/
def TMP6 : Int := 46

/-- inet.c:73-93; `acc` is the text written to `tmp` so far. -/
def outLoop (best : Run) (src : List Nat) (w5 : Nat) (acc : List Char) (i : Nat) : List Nat → Option (List Char)
  | [] => some acc
  | w :: ws =>
    if inside best i then
      outLoop best src w5 (if isBase best i then acc ++ [':'] else acc) (i + 1) ws
    else
      let acc := if i ≠ 0 then acc ++ [':'] else acc
      if embedded best i w5 then
        match ntop4 (src.drop 12) (TMP6 - acc.length) with
        | none => none
        | some t => some (acc ++ t)
      else outLoop best src w5 (acc ++ Nat.toDigits 16 w) (i + 1) ws

/-- inet.c:95-97 -/
def trailing (best : Run) : List Char :=
  match best with
  | none => []
  | some (b, l) => if b + l = 8 then [':'] else []

/-- inet.c:37-105 inet_ntop6. -/
def ntop6 (src : List Nat) (size : Int) : Option (List Char) :=
  let ws := words src
  let best := bestRun ws
  match outLoop best src (ws.getD 5 0) [] 0 ws with
  | none => none
  | some t =>
    let t := t ++ trailing best
    if (t.length + 1 : Int) > size then none else some t

/-- The cases distinguished in the model of inet.c:25-305, net/sk_utils.c:1157-1251. -/
inductive Af where
  | inet | inet6 | other
  deriving DecidableEq

/-- Result of k_inet_ntop: the string stored, or NULL with aosl_errno. Belongs to the model of inet.c:25-305, net/sk_utils.c:1157-1251. -/
inductive NtopR where
  | ok (t : List Char) | error (errno : Nat)
  deriving DecidableEq

/-- inet.c:107-120 k_inet_ntop (CONFIG_AOSL_IPV6 set); the error is aosl_errno. -/
def ntop (af : Af) (src : List Nat) (size : Int) : NtopR :=
  match af with
  | .inet => match ntop4 src size with | some t => .ok t | none => .error ENOSPC
  | .inet6 => match ntop6 src size with | some t => .ok t | none => .error ENOSPC
  | .other => .error EAFNOSUPPORT

/-- Bytes the copy `strcpy (dst, tmp)` writes to the caller's buffer: the text and the NUL. Belongs to the model of inet.c:25-305, net/sk_utils.c:1157-1251. -/
def written : NtopR → Nat
  | .ok t => t.length + 1
  | .error _ => 0

/-- `'0' <= ch && ch <= '9'` and `ch - '0'`, inet.c:142-144 -/
def decVal (c : Char) : Option Nat :=
  if '0'.toNat ≤ c.toNat ∧ c.toNat ≤ '9'.toNat then some (c.toNat - '0'.toNat) else none

/-- inet.c:139-171; `done` are the finished octets tmp[0..tp), `cur` is *tp. -/
def pton4Loop (done : List Nat) (cur : Nat) (saw : Bool) (octets : Nat) : List Char → Option (List Nat)
  | [] => if octets < 4 then none else some (done ++ [cur])
  | c :: rest =>
    match decVal c with
    | some d =>
      if saw && cur == 0 then none
      else if cur * 10 + d > 255 then none
      else if saw then pton4Loop done (cur * 10 + d) true octets rest
      else if octets + 1 > 4 then none
      else pton4Loop done (cur * 10 + d) true (octets + 1) rest
    | none =>
      if c = '.' ∧ saw = true then
        if octets = 4 then none else pton4Loop (done ++ [cur]) 0 false octets rest
      else none

/-- inet.c:131-172 inet_pton4: `none` is the return value 0, `some` the four bytes stored. -/
def pton4 (s : List Char) : Option (List Nat) := pton4Loop [] 0 false 0 s

/-- inet.c:176-185 -/
def hexVal (c : Char) : Option Nat :=
  if '0'.toNat ≤ c.toNat ∧ c.toNat ≤ '9'.toNat then some (c.toNat - '0'.toNat)
  else if 'a'.toNat ≤ c.toNat ∧ c.toNat ≤ 'f'.toNat then some (c.toNat - 'a'.toNat + 10)
  else if 'A'.toNat ≤ c.toNat ∧ c.toNat ≤ 'F'.toNat then some (c.toNat - 'A'.toNat + 10)
  else none

/-- Locals of inet_pton6: bytes tmp[0..tp), colonp as an offset, curtok as the remaining text. Belongs to the model of inet.c:25-305, net/sk_utils.c:1157-1251. -/
structure P6 where
  out : List Nat
  colonp : Option Nat
  curtok : List Char
  xd : Nat
  val : Nat
  deriving DecidableEq

/-- inet.c:245-246, 264-265 -/
def putWord (out : List Nat) (val : Nat) : List Nat := out ++ [(val >>> 8) &&& 0xff, val &&& 0xff]

/-- inet.c:216-259 -/
def pton6Loop (st : P6) : List Char → Option P6
  | [] => some st
  | c :: rest =>
    match hexVal c with
    | some d =>
      if st.xd = 4 then none
      else if ((st.val <<< 4) ||| d) > 0xffff then none
      else pton6Loop { st with val := (st.val <<< 4) ||| d, xd := st.xd + 1 } rest
    | none =>
      if c = ':' then
        if st.xd = 0 then
          match st.colonp with
          | some _ => none
          | none => pton6Loop { st with curtok := rest, colonp := some st.out.length } rest
        else if rest = [] then none
        else if st.out.length + 2 > 16 then none
        else pton6Loop { st with curtok := rest, out := putWord st.out st.val, xd := 0, val := 0 } rest
      else if c = '.' ∧ st.out.length + 4 ≤ 16 then
        match pton4 st.curtok with
        | some a => some { st with out := st.out ++ a, xd := 0 }
        | none => none
      else none

/-- inet.c:260-281 -/
def pton6Finish (st : P6) : Option (List Nat) :=
  if st.xd > 0 ∧ st.out.length + 2 > 16 then none
  else
    let out := if st.xd > 0 then putWord st.out st.val else st.out
    match st.colonp with
    | some cp =>
      if out.length = 16 then none
      else some (out.take cp ++ List.replicate (16 - out.length) 0 ++ out.drop cp)
    | none => if out.length ≠ 16 then none else some out

/-- inet.c:203-214 -/
def pton6 (s : List Char) : Option (List Nat) :=
  let start (s : List Char) := (pton6Loop ⟨[], none, s, 0, 0⟩ s).bind pton6Finish
  match s with
  | [] => none
  | ':' :: ':' :: r => start (':' :: r)
  | ':' :: _ => none
  | _ => start s

/-- inet.c:284-305 k_inet_pton: 1 with the stored bytes, 0, or -1 with EAFNOSUPPORT. -/
inductive PtonR where
  | one (bytes : List Nat) | zero | unsupported
  deriving DecidableEq

/-- Belongs to the model of inet.c:25-305, net/sk_utils.c:1157-1251. -/
def pton (af : Af) (s : List Char) : PtonR :=
  match af with
  | .inet => match pton4 s with | some b => .one b | none => .zero
  | .inet6 => match pton6 s with | some b => .one b | none => .zero
  | .other => .unsupported

/-- net/sk_utils.c:1157-1174 aosl_inet_addr_str for the two IP families (1138-1155 and 1176-1193 are the
    same on the address part of a socket address).  The function always returns `addr_buf`; the model
    gives what was written to it, `none` when nothing was.  `size_t buf_len` is converted to `int`. -/
def addrStr (af : Af) (a : List Nat) (bufLen : BitVec 64) : Option (List Char) :=
  match ntop af a (bufLen.truncate 32 : BitVec 32).toInt with
  | .ok t => some t
  | .error _ => none

/-- net/sk_utils.c:1236-1251 aosl_inet_addr_from_string: the returned size and the bytes stored; `none` is 0. -/
def addrFromString (s : List Char) : Option (Nat × List Nat) :=
  if ':' ∈ s then
    match pton .inet6 s with
    | .one b => some (16, b)
    | _ => none
  else
    match pton .inet s with
    | .one b => some (4, b)
    | _ => none

end Verif.Inet
