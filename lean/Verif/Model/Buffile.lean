import Verif.Model.File
/-!
Model of buffered files (/repo/lib/buffile.c 36-50, 129-235). A stream of the C library is modelled by what ISO C says of it:
the bytes of the file, a position, the end-of-file indicator. Simplified: every write reaches the file at once (nothing else
reads it while it is open) and fails only if the stream is `full` or not open for writing, and then writes nothing; a call of
`fseek` or `fflush` between reading and writing, which ISO C asks for, is not checked; `size` and `nitems` are not negative
and below 2^31; the default 1 of `nitems` has been filled in (C71).
-/
namespace Potion.Buffile
open Potion

/-- A `FILE` of the C library. -/
structure Stream where
  data : List Byte
  pos : Nat
  eof : Bool
  canRead : Bool
  canWrite : Bool
  append : Bool
  full : Bool
deriving DecidableEq

/-- Results of the methods: nil, true, false, an error object, an integer, a Bytes object; `outside`: the C code reads or
writes outside of the buffer. -/
inductive Res
  | nil
  | bool (b : Bool)
  | err
  | num (n : Int)
  | bytes (s : List Byte)
  | outside
deriving DecidableEq

/-- ISO C `fgetc` -/
def fgetc (s : Stream) : Stream × Int :=
  if s.canRead then
    match s.data[s.pos]? with
    | some b => ({ s with pos := s.pos + 1 }, b.toNat)
    | none => ({ s with eof := true }, -1)
  else (s, -1)

/-- ISO C `fgets(line, n + 1, f)`: `none` is NULL. -/
def fgets (s : Stream) (n : Nat) : Stream × Option (List Byte) :=
  if s.canRead then
    let l := (File.fgetsLoop n (s.data.drop s.pos)).1
    ({ s with pos := s.pos + l.length, eof := s.eof || (decide (l.length < n) && decide (l.getLast? ≠ some 0x0a#8)) },
     if l = [] then none else some l)
  else (s, none)

/-- ISO C `fread(p, size, n, f)`: the bytes transferred and the number of whole items. -/
def fread (s : Stream) (size n : Nat) : Stream × List Byte × Nat :=
  if s.canRead ∧ size * n ≠ 0 then
    let l := (s.data.drop s.pos).take (size * n)
    ({ s with pos := s.pos + l.length, eof := s.eof || decide (l.length < size * n) }, l, l.length / size)
  else (s, [], 0)

/-- ISO C `fwrite` of the bytes `l`; the success. -/
def put (s : Stream) (l : List Byte) : Stream × Bool :=
  if s.canWrite && !s.full then
    let p := if s.append then s.data.length else s.pos
    ({ s with data := File.overwrite s.data p l, pos := p + l.length }, true)
  else (s, false)

/-- ISO C `fopen` of a file with the given contents (`none`: there is no such file): `none` is NULL. -/
def open_ (file : Option (List Byte)) (mode : List Byte) : Option Stream :=
  match File.modeFlags mode with
  | none => none
  | some fl => match file with
    | none => if fl.creat then some ⟨[], 0, false, fl.rd, fl.wr, fl.app, false⟩ else none
    | some d => some ⟨if fl.trunc then [] else d, 0, false, fl.rd, fl.wr, fl.app, false⟩

/-- buffile.c:135-137 `potion_buffile_fgetc` -/
def mGetc (s : Stream) : Stream × Res :=
  let (s, c) := fgetc s
  (s, .num c)

/-- buffile.c:142-147 `potion_buffile_fgets`: `potion_byte_str` stops at a NUL. -/
def mGets (s : Stream) : Stream × Res :=
  match fgets s 1023 with
  | (s, some l) => (s, .bytes (l.takeWhile (· ≠ 0#8)))
  | (s, none) => (s, .nil)

/-- buffile.c:154-159 `potion_buffile_fread`; the buffer after it. -/
def mRead (s : Stream) (buf : List Byte) (size n : Nat) : Stream × List Byte × Res :=
  let (s, l, r) := fread s size n
  if buf.length < l.length then (s, buf, .outside)
  else (s, l ++ buf.drop l.length, if r < n then .err else .num r)

/-- What can be written: a string or a Bytes object. -/
inductive Buf
  | str (s : List Byte)
  | bytes (s : List Byte)

def Buf.chars : Buf → List Byte
  | .str s => s
  | .bytes s => s

/-- buffile.c:168: the answer to `length`: string.c:99-101 `potion_str_length` (characters) and string.c:413-416
`potion_bytes_length` (bytes). -/
def Buf.length : Buf → Option Nat
  | .str s => Str.strlenUtf8 (fun a => s.getD a 0#8) 0 (s.length + 1)
  | .bytes s => some s.length

/-- buffile.c:166-182 `potion_buffile_fwrite` (`size = none`: nil). The byte after the text of a string is NUL. -/
def mWrite (s : Stream) (b : Buf) (size : Option Nat) (n : Nat) : Option (Stream × Res) :=
  let sz := match size with
    | some k => some k
    | none => if n = 1 then b.length else some 0
  match sz with
  | none => none
  | some k =>
    if k * n = 0 then some (s, if 0 < n then .err else .num 0)
    else if b.chars.length + 1 < k * n then some (s, .outside)
    else match put s ((b.chars ++ [0#8]).take (k * n)) with
      | (s, true) => some (s, .num n)
      | (s, false) => some (s, .err)

/-- buffile.c:186-188 `potion_buffile_fputc`: the number as an unsigned char, or -1. -/
def mPutc (s : Stream) (c : Int) : Stream × Res :=
  match put s [BitVec.ofInt 8 c] with
  | (s, true) => (s, .num (BitVec.ofInt 8 c).toNat)
  | (s, false) => (s, .num (-1))

/-- buffile.c:193-198 `potion_buffile_fputs`: an error if `fputs` answers 0. The C library answers 1, or -1 on failure; an
empty text is written without failure. -/
def mPuts (s : Stream) (text : List Byte) : Stream × Res :=
  let l := text.takeWhile (· ≠ 0#8)
  let (s, r) := if l = [] then (s, (1 : Int)) else
    match put s l with
    | (s, true) => (s, 1)
    | (s, false) => (s, -1)
  if r = 0 then (s, .err) else (s, .num r)

/-- buffile.c:212-216 `potion_buffile_fseek`; ISO C `fseek`: whence 0, 1, 2 is from the start, the position, the end. -/
def mSeek (s : Stream) (offset : Int) (whence : Nat) : Stream × Res :=
  let base : Option Int := match whence with
    | 0 => some 0
    | 1 => some s.pos
    | 2 => some s.data.length
    | _ => none
  match base with
  | none => (s, .err)
  | some b => if b + offset < 0 then (s, .err) else ({ s with pos := (b + offset).toNat, eof := false }, .bool true)

/-- buffile.c:221-226 `potion_buffile_ftell` -/
def mTell (s : Stream) : Res := .num s.pos

/-- buffile.c:230-233 `potion_buffile_feof` -/
def mEof (s : Stream) : Res := .bool s.eof

/-- The lines of a stream: `fgets` until nil (`fuel`: a bound on their number). -/
def allLines : (fuel : Nat) → Stream → List (List Byte)
  | 0, _ => []
  | f+1, s => match mGets s with
    | (s, .bytes l) => l :: allLines f s
    | _ => []

/-- `fgetc` called `n` times. -/
def getcs : (n : Nat) → Stream → List Res × Stream
  | 0, s => ([], s)
  | n+1, s =>
    let (s1, r) := mGetc s
    let (l, s2) := getcs n s1
    (r :: l, s2)

end Potion.Buffile
