/-!
# Files and directories on the ports

Models kernel/file.c (all of it) on top of `aosl_hal_file.c` of every port (platform/src/*/aosl_hal_file.c).

What lies below — the C library, FatFs on xr872, ql_fs on asr1606, the SDK of ac791n — is modelled by its documented effect on a tree of names: the `sys…`
functions.  Simplifications: the tree is a list of (path, node); a failure of the platform (no permission, no room, a broken disk) is an argument `ok` of the call;
failing calls of FatFs answer -1 here, a negative code there; memory does not run out; an open stream is tied to the path, not to the file behind it; `fdelete_dir` of ac791n and `ql_remove` of asr1606 remove a directory only if it is
empty.  The files of linux were partly modelled before (C138).
-/

namespace Verif.PortFile

/-- characters. Belongs to the model of asr1606/aosl_hal_file.c:6-196, kernel/file.c:12-68. -/
abbrev Str := List Nat
/-- a path from the root. Belongs to the model of asr1606/aosl_hal_file.c:6-196, kernel/file.c:12-68. -/
abbrev Path := List Str

/-- The cases distinguished in the model of asr1606/aosl_hal_file.c:6-196, kernel/file.c:12-68. -/
inductive Node
  | dir
  | file (c : List Nat)
deriving DecidableEq, Repr

/-- Belongs to the model of asr1606/aosl_hal_file.c:6-196, kernel/file.c:12-68. -/
abbrev Fs := List (Path × Node)

/-! ## The file system below -/

/-- The names in a path: between slashes (47), empty ones dropped. -/
def splitGo : Str → Str → Path
  | [], cur => if cur = [] then [] else [cur]
  | c :: s, cur => if c = 47 then (if cur = [] then splitGo s [] else cur :: splitGo s []) else splitGo s (cur ++ [c])

/-- Belongs to the model of asr1606/aosl_hal_file.c:6-196, kernel/file.c:12-68. -/
def comps (s : Str) : Path := splitGo s []

/-- Belongs to the model of asr1606/aosl_hal_file.c:6-196, kernel/file.c:12-68. -/
def get (fs : Fs) (p : Path) : Option Node := if p = [] then some .dir else (fs.find? (·.1 == p)).map (·.2)

/-- Belongs to the model of asr1606/aosl_hal_file.c:6-196, kernel/file.c:12-68. -/
def del (fs : Fs) (p : Path) : Fs := fs.filter (·.1 != p)

/-- Belongs to the model of asr1606/aosl_hal_file.c:6-196, kernel/file.c:12-68. -/
def put (fs : Fs) (p : Path) (n : Node) : Fs := (p, n) :: del fs p

/-- what `p` as a directory lists. Belongs to the model of asr1606/aosl_hal_file.c:6-196, kernel/file.c:12-68. -/
def children (fs : Fs) (p : Path) : List (Str × Bool) :=
  fs.filterMap fun e => match e.1.getLast? with
    | none => none
    | some x => if e.1.dropLast = p then some (x, e.2 == .dir) else none

/-- Belongs to the model of asr1606/aosl_hal_file.c:6-196, kernel/file.c:12-68. -/
def sysMkdir (ok : Bool) (fs : Fs) (p : Path) : Bool × Fs :=
  if ok ∧ get fs p = none ∧ get fs p.dropLast = some .dir then (true, put fs p .dir) else (false, fs)

/-- Belongs to the model of asr1606/aosl_hal_file.c:6-196, kernel/file.c:12-68. -/
def sysRmdir (ok : Bool) (fs : Fs) (p : Path) : Bool × Fs :=
  if ok ∧ p ≠ [] ∧ get fs p = some .dir ∧ children fs p = [] then (true, del fs p) else (false, fs)

/-- `remove`, `f_unlink`: a file, and if `dirs` an empty directory. Belongs to the model of asr1606/aosl_hal_file.c:6-196, kernel/file.c:12-68. -/
def sysUnlink (dirs ok : Bool) (fs : Fs) (p : Path) : Bool × Fs :=
  if !ok then (false, fs) else
  match get fs p with
  | none => (false, fs)
  | some (.file _) => (true, del fs p)
  | some .dir => if dirs then sysRmdir ok fs p else (false, fs)

/-- may `n` be renamed to `b`?. Belongs to the model of asr1606/aosl_hal_file.c:6-196, kernel/file.c:12-68. -/
def freeFor (repl : Bool) (fs : Fs) (n : Node) (b : Path) : Bool :=
  match get fs b with
  | none => true
  | some (.file _) => repl && n != .dir
  | some .dir => repl && n == .dir && children fs b == []

/-- `rename`; `repl`: an existing file, or empty directory, is replaced. Belongs to the model of asr1606/aosl_hal_file.c:6-196, kernel/file.c:12-68. -/
def sysRename (repl ok : Bool) (fs : Fs) (a b : Path) : Bool × Fs :=
  if !ok ∨ a = [] ∨ b = [] then (false, fs) else
  match get fs a with
  | none => (false, fs)
  | some n =>
    if a = b then (true, fs) else
    if a <+: b ∨ get fs b.dropLast ≠ some .dir then (false, fs) else
    if !freeFor repl fs n b then (false, fs) else
    (true, (fs.filter fun e => e.1 != b).map fun e => if a <+: e.1 then (b ++ e.1.drop a.length, e.2) else e)

/-! ## Streams -/

/-- what an open asks for. Belongs to the model of asr1606/aosl_hal_file.c:6-196, kernel/file.c:12-68. -/
structure Mode where
  rd : Bool
  wr : Bool
  create : Bool
  trunc : Bool
  app : Bool
deriving DecidableEq, Repr

/-- The C library's mode strings: r (114), w (119), a (97) first, + (43) anywhere. -/
def modeC (m : Str) : Option Mode :=
  let plus := decide (43 ∈ m)
  match m.head? with
  | some 114 => some ⟨true, plus, false, false, false⟩
  | some 119 => some ⟨plus, true, true, true, false⟩
  | some 97 => some ⟨plus, true, true, false, true⟩
  | _ => none

/-- The flags for `f_open` (xr872/aosl_hal_file.c:176-183): FA_OPEN_APPEND does not contain FA_WRITE. -/
def modeXr (m : Str) : Mode :=
  ⟨decide (43 ∈ m ∨ 114 ∈ m), decide (43 ∈ m ∨ 119 ∈ m), decide (97 ∈ m ∨ 119 ∈ m), decide (119 ∈ m), decide (97 ∈ m)⟩

/-- `sanitize_mode` (ac791n/aosl_hal_file.c:6-15): without b (98), at most 7 characters. -/
def sanitizeMode (m : Str) : Str := (m.filter (· != 98)).take 7

/-- Data of the model of asr1606/aosl_hal_file.c:6-196, kernel/file.c:12-68. -/
structure Handle where
  path : Path
  pos : Nat
  rd : Bool
  wr : Bool
  app : Bool
deriving DecidableEq, Repr, Inhabited

/-- Belongs to the model of asr1606/aosl_hal_file.c:6-196, kernel/file.c:12-68. -/
def sysOpen (ok : Bool) (fs : Fs) (p : Path) (m : Mode) : Option Handle × Fs :=
  if !ok then (none, fs) else
  match get fs p with
  | some .dir => (none, fs)
  | some (.file _) => (some ⟨p, 0, m.rd, m.wr, m.app⟩, if m.trunc then put fs p (.file []) else fs)
  | none => if m.create ∧ get fs p.dropLast = some .dir then (some ⟨p, 0, m.rd, m.wr, m.app⟩, put fs p (.file [])) else (none, fs)

/-- content at a path, nothing if there is no file. Belongs to the model of asr1606/aosl_hal_file.c:6-196, kernel/file.c:12-68. -/
def content (fs : Fs) (p : Path) : List Nat := match get fs p with
  | some (.file c) => c
  | _ => []

/-- `room`: how many bytes the disk takes.  The count, the handle and the tree after.  A file that lost its name takes the bytes with it. Belongs to the model of asr1606/aosl_hal_file.c:6-196, kernel/file.c:12-68. -/
def sysWrite (fs : Fs) (h : Handle) (data : List Nat) (room : Nat) : Nat × Handle × Fs :=
  let n := min room data.length
  match get fs h.path with
  | some (.file c) =>
    let at_ := if h.app then c.length else h.pos
    (n, { h with pos := at_ + n }, put fs h.path (.file (c.take at_ ++ List.replicate (at_ - c.length) 0 ++ data.take n ++ c.drop (at_ + n))))
  | _ => (n, { h with pos := h.pos + n }, fs)

/-- the bytes read and the handle after. Belongs to the model of asr1606/aosl_hal_file.c:6-196, kernel/file.c:12-68. -/
def sysRead (fs : Fs) (h : Handle) (size : Nat) : List Nat × Handle :=
  let b := ((content fs h.path).drop h.pos).take size
  (b, { h with pos := h.pos + b.length })

/-! ## The ports -/

inductive Port
  /-- linux, darwin, harmony -/
  | posix
  | windows | asr1606 | xr872 | ac791n | tw82x
  /-- bk725x, esp32, ipro7, rtl8713, spreadtrum-*: every function answers 0 -/
  | stub
deriving DecidableEq, Repr

/-- an answer of 0 or -1. Belongs to the model of asr1606/aosl_hal_file.c:6-196, kernel/file.c:12-68. -/
def ans (x : Bool × Fs) : Int × Fs := (if x.1 then 0 else -1, x.2)

/-- `size_t`, `off_t` to `int`. Belongs to the model of asr1606/aosl_hal_file.c:6-196, kernel/file.c:12-68. -/
def toInt (n : Nat) : Int := if n % 2 ^ 32 < 2 ^ 31 then (n % 2 ^ 32 : Nat) else (n % 2 ^ 32 : Nat) - 2 ^ 32

/-- aosl_fexist (kernel/file.c:30-33): linux/aosl_hal_file.c:16-19 and the like; ac791n/aosl_hal_file.c:105-115; xr872/aosl_hal_file.c:102-110 answers 0 if there is
something, a negative code if not. -/
def fexist (p : Port) (fs : Fs) (s : Str) : Int :=
  match p with
  | .posix | .windows | .asr1606 | .ac791n => if (get fs (comps s)).isSome then 1 else 0
  | .xr872 => if (get fs (comps s)).isSome then 0 else -1
  | .tw82x | .stub => 0

/-- The arguments for `fmk_dir` (ac791n/aosl_hal_file.c:23-84): the parent and the folder's name with a slash; `none`: the path is empty. -/
def acSplit (s : Str) : Option (Str × Str) :=
  if s = [] then none else
  let clean := if s.length > 1 ∧ s.getLast? = some 47 then s.dropLast else s
  -- strrchr: the text after the last slash
  let name := (clean.reverse.takeWhile (· != 47)).reverse
  if name.length = clean.length then some ([47], clean)
  else
    let parent := clean.take (clean.length - name.length - 1)
    some (if parent = [] then [47] else parent, 47 :: name)

/-- aosl_hal_mkdir: linux/aosl_hal_file.c:6-9, windows/aosl_hal_file.c, asr1606/aosl_hal_file.c:6-9, ac791n/aosl_hal_file.c:23-84, xr872/aosl_hal_file.c:12-26
(an existing directory, and an existing file, is no error), the others answer 0. -/
def halMkdir (p : Port) (ok : Bool) (fs : Fs) (s : Str) : Int × Fs :=
  match p with
  | .posix | .windows | .asr1606 => ans (sysMkdir ok fs (comps s))
  | .ac791n => match acSplit s with
    | none => (-1, fs)
    | some (a, b) => ans (sysMkdir ok fs (comps a ++ comps b))
  | .xr872 => if (get fs (comps s)).isSome then (0, fs) else ans (sysMkdir ok fs (comps s))
  | .tw82x | .stub => (0, fs)

/-- aosl_mkdir (kernel/file.c:12-18). -/
def mkdir (p : Port) (ok : Bool) (fs : Fs) (s : Str) : Int × Fs :=
  if fexist p fs s ≠ 0 then (0, fs) else halMkdir p ok fs s

/-- One directory of `aosl_hal_rmdir` on xr872 (xr872/aosl_hal_file.c:51-78): `f_readdir` until the end, deleting; the entries are those there at the start.
The name is printed into 260 bytes.  `rec`: the call for a directory.  The flag: all deleted. -/
def xrLoop (rec : Fs → Str → Option (Int × Fs)) (ok : Path → Bool) (s : Str) : List (Str × Bool) → Fs → Option (Bool × Fs)
  | [], fs => some (true, fs)
  | (x, isDir) :: l, fs =>
    let t := (s ++ 47 :: x).take 259
    if isDir then
      match rec fs t with
      | none => none
      | some (r, fs1) => if r < 0 then some (false, fs1) else xrLoop rec ok s l fs1
    else
      let u := sysUnlink true (ok (comps t)) fs (comps t)
      if u.1 then xrLoop rec ok s l u.2 else some (false, u.2)

/-- `aosl_hal_rmdir` on xr872 (xr872/aosl_hal_file.c:28-100); `none`: still calling itself after `fuel` levels. -/
def xrRmdir (ok : Path → Bool) : Nat → Fs → Str → Option (Int × Fs)
  | 0, _, _ => none
  | fuel + 1, fs, s =>
    let p := comps s
    if get fs p ≠ some .dir then some (-1, fs)
    else
      match xrLoop (xrRmdir ok fuel) ok s (children fs p) fs with
      | none => none
      | some (false, fs1) => some (-1, fs1)
      | some (true, fs1) => some (ans (sysUnlink true (ok p) fs1 p))

/-- The argument of `fdelete_dir` (ac791n/aosl_hal_file.c:87-103). -/
def acRmArg (s : Str) : Str := if s.getLast? = some 47 then s.dropLast else s

/-- aosl_rmdir (kernel/file.c:20-23): linux/aosl_hal_file.c:11-14, asr1606/aosl_hal_file.c:11-14 (the same call as for files), ac791n, xr872. -/
def rmdir (p : Port) (ok : Bool) (fuel : Nat) (fs : Fs) (s : Str) : Option (Int × Fs) :=
  match p with
  | .posix | .windows => some (ans (sysRmdir ok fs (comps s)))
  | .asr1606 => some (ans (sysUnlink true ok fs (comps s)))
  | .ac791n => if s = [] then some (-1, fs) else some (ans (sysRmdir ok fs (comps (acRmArg s))))
  | .xr872 => xrRmdir (fun _ => ok) fuel fs s
  | .tw82x | .stub => some (0, fs)

/-- aosl_fsize (kernel/file.c:25-28): linux/aosl_hal_file.c:21-28, xr872/aosl_hal_file.c:112-125, ac791n/aosl_hal_file.c:117-124, asr1606/aosl_hal_file.c:22-34.
A directory: no size (on the ports that open the path), or an unspecified one, here 0. -/
def fsize (p : Port) (fs : Fs) (s : Str) : Int :=
  match p with
  | .tw82x | .stub => 0
  | .ac791n | .asr1606 => match get fs (comps s) with
    | some (.file c) => toInt c.length
    | _ => -1
  | .posix | .windows | .xr872 => match get fs (comps s) with
    | some (.file c) => toInt c.length
    | some .dir => 0
    | none => -1

/-- aosl_file_create (kernel/file.c:35-38): "a+" on posix, windows and asr1606 ("a"), "w" on ac791n/aosl_hal_file.c:126-134, FA_CREATE_ALWAYS on xr872/aosl_hal_file.c:127-141. -/
def fileCreate (p : Port) (ok : Bool) (fs : Fs) (s : Str) : Int × Fs :=
  let done (x : Option Handle × Fs) : Int × Fs := (if x.1.isSome then 0 else -1, x.2)
  match p with
  | .posix | .windows => done (sysOpen ok fs (comps s) ⟨true, true, true, false, true⟩)
  | .asr1606 => done (sysOpen ok fs (comps s) ⟨false, true, true, false, true⟩)
  | .ac791n | .xr872 => done (sysOpen ok fs (comps s) ⟨false, true, true, true, false⟩)
  | .tw82x | .stub => (0, fs)

/-- aosl_file_delete (kernel/file.c:40-43): `remove` (on windows: no directories), `ql_remove`, `fdelete_by_name`, `f_unlink` (xr872/aosl_hal_file.c:143-154). -/
def fileDelete (p : Port) (ok : Bool) (fs : Fs) (s : Str) : Int × Fs :=
  match p with
  | .posix | .asr1606 | .xr872 => ans (sysUnlink true ok fs (comps s))
  | .windows | .ac791n => ans (sysUnlink false ok fs (comps s))
  | .tw82x | .stub => (0, fs)

/-- aosl_file_rename (kernel/file.c:45-48): `rename`, on windows and FatFs without replacing; ac791n/aosl_hal_file.c:141-152 opens the file — it must be one — and gives it the
last name of the new path, in its old directory (`get_basename`, 17-21). -/
def fileRename (p : Port) (ok : Bool) (fs : Fs) (a b : Str) : Int × Fs :=
  match p with
  | .posix => ans (sysRename true ok fs (comps a) (comps b))
  | .windows | .asr1606 | .xr872 => ans (sysRename false ok fs (comps a) (comps b))
  | .ac791n =>
    match get fs (comps a) with
    | some (.file _) => ans (sysRename false ok fs (comps a) ((comps a).dropLast ++ comps ((b.reverse.takeWhile (· != 47)).reverse)))
    | _ => (-1, fs)
  | .tw82x | .stub => (0, fs)

/-- aosl_fopen (kernel/file.c:50-53): `fopen` on posix, windows, tw82x (tw82x/aosl_hal_file.c:97-100), asr1606 (`ql_fopen`); ac791n/aosl_hal_file.c:154-159;
xr872/aosl_hal_file.c:169-196; the stubs answer no handle. -/
def fopen (p : Port) (ok : Bool) (fs : Fs) (s m : Str) : Option Handle × Fs :=
  match p with
  | .stub => (none, fs)
  | .xr872 => sysOpen ok fs (comps s) (modeXr m)
  | .ac791n => match modeC (sanitizeMode m) with
    | none => (none, fs)
    | some k => sysOpen ok fs (comps s) k
  | _ => match modeC m with
    | none => (none, fs)
    | some k => sysOpen ok fs (comps s) k

/-- aosl_fwrite (kernel/file.c:65-68): the count; a stream not open for writing: 0, on xr872 and tw82x a negative answer. -/
def fwrite (p : Port) (fs : Fs) (h : Handle) (data : List Nat) (room : Nat) : Int × Handle × Fs :=
  match p with
  | .stub => (0, h, fs)
  | p =>
    if h.wr then
      let w := sysWrite fs h data room
      (toInt w.1, w.2)
    else (if p = .xr872 ∨ p = .tw82x then -1 else 0, h, fs)

/-- aosl_fread (kernel/file.c:60-63). -/
def fread (p : Port) (fs : Fs) (h : Handle) (size : Nat) : Int × List Nat × Handle :=
  match p with
  | .stub => (0, [], h)
  | p =>
    if h.rd then
      let r := sysRead fs h size
      (toInt r.1.length, r)
    else (if p = .xr872 ∨ p = .tw82x then -1 else 0, [], h)

/-- aosl_fclose (kernel/file.c:55-58): if the rest of a buffer cannot be written, `lost` bytes at the end are not there and the answer is not 0. -/
def fclose (p : Port) (ok : Bool) (lost : Nat) (fs : Fs) (h : Handle) : Int × Fs :=
  match p with
  | .stub => (0, fs)
  | _ => if ok then (0, fs) else (-1, match get fs h.path with
    | some (.file c) => if h.wr then put fs h.path (.file (c.take (c.length - lost))) else fs
    | _ => fs)

end Verif.PortFile
