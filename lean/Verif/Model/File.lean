import Verif.Model.Word
import Verif.Model.Str
import Verif.Model.Khash
/-!
Model of unbuffered files (/repo/core/file.c). The operating system is modelled by the POSIX meaning of `open`, `read`,
`write`, `close`: a file system of named byte sequences and a table of descriptors. Every `read` and `write` takes the
kernel's decision `k` as an argument: `none` is a failure (-1), `some n` transfers at most `n + 1` bytes (a short read or
write). Simplified: names are not removed, renamed or linked and files are not devices or pipes; `open` fails only for a
missing file; `close` closes (the EINTR loop of file.c:90 is left out); sizes are below 2^31 (`int r`).
-/
namespace Potion.File
open Potion

abbrev Path := List Byte

/-- The `O_…` flags of file.c:43-54. -/
structure Flags where
  rd : Bool
  wr : Bool
  trunc : Bool
  creat : Bool
  app : Bool
deriving DecidableEq

/-- An open file description. -/
structure Desc where
  path : Path
  off : Nat
  fl : Flags
deriving DecidableEq

/-- The operating system: files by name, and the descriptor table. -/
structure OS where
  fs : Path → Option (List Byte)
  fds : List (Option Desc)

/-- The lowest free descriptor. -/
def freeFd : List (Option Desc) → Nat
  | [] => 0
  | none :: _ => 0
  | some _ :: l => freeFd l + 1

/-- Put an entry in the descriptor table. -/
def setFd : List (Option Desc) → Nat → Option Desc → List (Option Desc)
  | [], 0, d => [d]
  | [], n+1, d => none :: setFd [] n d
  | _ :: l, 0, d => d :: l
  | x :: l, n+1, d => x :: setFd l n d

/-- POSIX `open`. -/
def osOpen (os : OS) (p : Path) (fl : Flags) : Option (OS × Nat) :=
  match os.fs p with
  | none =>
    if fl.creat then
      let fd := freeFd os.fds
      some ({ fs := fun q => if q = p then some [] else os.fs q, fds := setFd os.fds fd (some ⟨p, 0, fl⟩) }, fd)
    else none
  | some c =>
    let fd := freeFd os.fds
    some ({ fs := fun q => if q = p then some (if fl.trunc then [] else c) else os.fs q,
            fds := setFd os.fds fd (some ⟨p, 0, fl⟩) }, fd)

/-- The description behind a descriptor; -1 has none. -/
def OS.desc (os : OS) (fd : Int) : Option Desc := if fd < 0 then none else (os.fds[fd.toNat]?).join

/-- POSIX `read` of up to `n` bytes. -/
def osRead (os : OS) (fd : Int) (n : Nat) (k : Option Nat) : Option (OS × List Byte) := do
  let d ← os.desc fd
  let k ← k
  if d.fl.rd then
    let c := (os.fs d.path).getD []
    let r := (c.drop d.off).take (min n (k + 1))
    return ({ os with fds := setFd os.fds fd.toNat (some { d with off := d.off + r.length }) }, r)
  else none

/-- Contents after writing `s` at `pos` (a gap is filled with zeros). -/
def overwrite (c : List Byte) (pos : Nat) (s : List Byte) : List Byte :=
  c.take pos ++ List.replicate (pos - c.length) 0#8 ++ s ++ c.drop (pos + s.length)

/-- POSIX `write`. -/
def osWrite (os : OS) (fd : Int) (s : List Byte) (k : Option Nat) : Option (OS × Nat) := do
  let d ← os.desc fd
  let k ← k
  if d.fl.wr then
    let c := (os.fs d.path).getD []
    let pos := if d.fl.app then c.length else d.off
    let s' := s.take (k + 1)
    return ({ fs := fun q => if q = d.path then some (overwrite c pos s') else os.fs q,
              fds := setFd os.fds fd.toNat (some { d with off := pos + s'.length }) }, s'.length)
  else none

/-- A File object: its descriptor (`path` and `mode` are only displayed). -/
structure Obj where
  fd : Int
deriving DecidableEq

structure State where
  os : OS
  objs : List Obj

/-- Results: nil, an error object, a File object, a Bytes object, an integer, a string. -/
inductive Res
  | nil
  | err
  | file (i : Nat)
  | bytes (s : List Byte)
  | num (n : Nat)
  | str (s : List Byte)
deriving DecidableEq

/-- file.c:43-57: the mode string (a C string). -/
def modeFlags (m : List Byte) : Option Flags :=
  let c := m.takeWhile (· ≠ 0#8)
  if c = [0x72#8] then some ⟨true, false, false, false, false⟩               -- "r"
  else if c = [0x72#8, 0x2b#8] then some ⟨true, true, false, false, false⟩     -- "r+"
  else if c = [0x77#8] then some ⟨false, true, true, true, false⟩            -- "w"
  else if c = [0x77#8, 0x2b#8] then some ⟨true, true, true, true, false⟩       -- "w+"
  else if c = [0x61#8] then some ⟨false, true, false, true, true⟩            -- "a"
  else if c = [0x61#8, 0x2b#8] then some ⟨true, true, false, true, true⟩       -- "a+"
  else none

/-- file.c:39-65 `potion_file_new`. The path is a C string. -/
def fileNew (st : State) (p m : List Byte) : State × Res :=
  match modeFlags m with
  | none => (st, .nil)
  | some fl =>
    match osOpen st.os (p.takeWhile (· ≠ 0#8)) fl with
    | none => (st, .err)
    | some (os, fd) => ({ os := os, objs := st.objs ++ [⟨fd⟩] }, .file st.objs.length)

/-- file.c:88-93 `potion_file_close`. -/
def fileClose (st : State) (i : Nat) : State × Res :=
  match st.objs[i]? with
  | none => (st, .err)
  | some o =>
    ({ os := if o.fd < 0 then st.os else { st.os with fds := setFd st.os.fds o.fd.toNat none },
       objs := st.objs.set i ⟨-1⟩ }, .nil)

/-- file.c:99-112 `potion_file_read` of `n ≥ 0` bytes (a negative `n` makes `char buf[n]` undefined). -/
def fileRead (st : State) (i n : Nat) (k : Option Nat) : State × Res :=
  match st.objs[i]? with
  | none => (st, .err)
  | some o =>
    match osRead st.os o.fd n k with
    | none => (st, .err)
    | some (os, r) => ({ st with os := os }, if r.length = 0 then .nil else .bytes r)

/-- What can be written. A Bytes object comes with the memory behind its contents. -/
inductive Val
  | nil
  | int (i : Int)
  | bool (b : Bool)
  | str (s : List Byte)
  | bytes (s : List Byte) (after : Nat → Byte)
  | dbl (bits : BitVec 64)
  | other

/-- The eight bytes of a word in memory (little endian). -/
def le64 (w : BitVec 64) : List Byte := (List.range 8).map fun j => (w >>> (8 * j)).setWidth 8

/-- file.c:118-144: pointer and length of the bytes to write; `none` where nothing is written (`Sum`: nil or an error).
Line 125 boxes the boxed integer again, line 137 takes the boxed length for the length. -/
def payload : Val → List Byte ⊕ Res
  | .nil => .inr .nil
  | .int i => .inl (le64 (pnNum (pnNum i).toInt))
  | .bool b => .inl [if b then 1#8 else 0#8]
  | .str s => .inl s
  | .bytes s after => .inl ((List.range (pnNum s.length).toNat).map fun j => Str.cmem s after j)
  | .dbl w => .inl (le64 w)
  | .other => .inr .err

/-- file.c:118-149 `potion_file_write`. -/
def fileWrite (st : State) (i : Nat) (v : Val) (k : Option Nat) : State × Res :=
  match payload v with
  | .inr r => (st, r)
  | .inl s =>
    match st.objs[i]? with
    | none => (st, .err)
    | some o =>
      match osWrite st.os o.fd s k with
      | none => (st, .err)
      | some (os, n) => ({ st with os := os }, .num n)

/-- file.c:156-159 `potion_file_print`: `s` is what the object answers to `string`. -/
def filePrint (st : State) (i : Nat) (s : List Byte) (k : Option Nat) : State × Res :=
  match fileWrite st i (.str s) k with
  | (st1, .num _) => (st1, .str [])
  | (st1, r) => (st1, r)

/-- Operations on files. -/
inductive Op
  | new (path mode : List Byte)
  | close (i : Nat)
  | read (i n : Nat) (k : Option Nat)
  | write (i : Nat) (v : Val) (k : Option Nat)
  | print (i : Nat) (s : List Byte) (k : Option Nat)

def step (st : State) : Op → State × Res
  | .new p m => fileNew st p m
  | .close i => fileClose st i
  | .read i n k => fileRead st i n k
  | .write i v k => fileWrite st i v k
  | .print i s k => filePrint st i s k

/-- A history of operations with their results. -/
def run (st : State) : List Op → State × List Res
  | [] => (st, [])
  | o :: os =>
    let (st1, r) := step st o
    let (st2, rs) := run st1 os
    (st2, r :: rs)

/-! ### Lines of standard input -/

/-- C `fgets(line, 1024, stdin)`: at most 1023 bytes, up to and including a newline; `none` at the end of the input. -/
def fgetsLoop : (n : Nat) → List Byte → List Byte × List Byte
  | 0, s => ([], s)
  | _, [] => ([], [])
  | n+1, b :: s => if b = 0x0a#8 then ([b], s) else
    let (l, r) := fgetsLoop n s
    (b :: l, r)

/-- file.c:183-188 `potion_lobby_read`: the line as a C string, and the rest of the input. -/
def lobbyRead (stdin : List Byte) : Option (List Byte) × List Byte :=
  if stdin = [] then (none, []) else
    let (l, r) := fgetsLoop 1023 stdin
    (some (l.takeWhile (· ≠ 0#8)), r)

/-- Repeated `read`s until nil (`fuel`: a bound on their number). -/
def readAll : (fuel : Nat) → List Byte → List (List Byte)
  | 0, _ => []
  | f+1, s => match lobbyRead s with
    | (none, _) => []
    | (some l, r) => l :: readAll f r

/-! ### The environment -/

/-- file.c:196: the key is what stands before the first `=`; `none` when there is none (the loop runs out of the
string). -/
def splitEnv : List Byte → Option (List Byte × List Byte)
  | [] => none
  | b :: s => if b = 0x3d#8 then some ([], s) else (splitEnv s).map fun (k, v) => (b :: k, v)

/-- file.c:193-200: the table of `Env`. Keys are strings; by C17 their identity is their contents. -/
def envTable (hash : List Byte → Nat) : KH (List Byte) (List Byte) → List (List Byte) → Option (KH (List Byte) (List Byte))
  | t, [] => some t
  | t, e :: es => do
    let (k, v) ← splitEnv e
    let t ← t.put hash k v
    envTable hash t es

end Potion.File
