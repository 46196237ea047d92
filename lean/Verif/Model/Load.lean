import Verif.Model.Dump
/-!
Model of `load` (/repo/core/load.c 16-190), for ELF systems (POTION_LOADEXT is ".so"). The file system is a map from paths
to the contents of regular files; it does not change during the call, and files can be read. Strings are the bytes before
the NUL. Messages to standard error are one event. Not modelled: reading one byte before the block in the loops at
load.c:61 and 173 when there is no dot or slash (its value does not matter), `dlopen`.
-/
namespace Potion.Load
open Potion

abbrev Path := List Byte
abbrev Fs := Path → Option (List Byte)

/-- `'.'` and `'/'`. -/
def dot : Byte := 46
def slash : Byte := 47

/-- load.c:95-99 `pn_loader_extensions`: ".pnb", ".pn", ".so". -/
def pnb : Path := [46, 112, 110, 98]
def pn : Path := [46, 112, 110]
def so : Path := [46, 115, 111]
def exts : List Path := [pnb, pn, so]

/-- The C string in a buffer. -/
def cstr (s : List Byte) : List Byte := s.takeWhile (· ≠ 0)

/-- load.c:101-117 `find_extension`. -/
def findExt (fs : Fs) (s : Path) : Option Path := exts.find? fun e => (fs (s ++ e)).isSome

/-- load.c:143-146: the part after the last slash (`strrchr`). -/
def base (s : List Byte) : List Byte := (s.reverse.takeWhile (· ≠ slash)).reverse

/-- A path in a block of the heap: its size, and how many bytes were written to it. -/
structure Hit where
  path : Path
  room : Nat
  used : Nat
  deriving DecidableEq

/-- What `asprintf` makes. -/
def exact (p : Path) : Hit := ⟨p, p.length + 1, p.length + 1⟩

/-- load.c:123-158, the body of the loop of `potion_find_file`. `str`: the bytes of the string that was passed, which may be
changed. `junk`: what lies after the buffer `dirname`, including its last byte; a dot in the name leaves the
copy of the name without a NUL. -/
def tryDir (fs : Fs) (pre str junk : List Byte) : List Byte × Option Hit :=
  let d := str.idxOf? dot
  let dirname := cstr (pre ++ [slash] ++ str ++ (if d.isSome then junk else [0]))
  let str' := match d with
    | some i => str.set i 0
    | none => str
  if (fs dirname).isSome then (str', some (exact dirname))
  else match findExt fs dirname with
    | some e => (str', some (exact (dirname ++ e)))
    | none =>
      let r := dirname ++ [slash] ++ base (cstr str')
      if (fs r).isSome then (str', some (exact r))
      else match findExt fs r with
        | none => (str', none)
        | some e =>
          let n := pre.length + 1 + str.length * 2 + 1
          (str', some ⟨if n ≤ r.length then r.take n ++ e else r, n + e.length, n + e.length + 1⟩)

/-- load.c:119-161 `potion_find_file`, with what becomes of the string that was passed. `junk i`: what lies after the buffer when `i`
directories are left. -/
def findFile (fs : Fs) (junk : Nat → List Byte) : List Path → List Byte → List Byte × Option Hit
  | [], str => (str, none)
  | p :: ps, str => match tryDir fs p str (junk ps.length) with
    | (str, none) => findFile fs junk ps str
    | r => r

/-- load.c:53-69 `potion_initializer_name`: "Potion_Init_" and the last component of what comes before the first dot, which is
looked for from the second byte on. -/
def initName (f : Path) : List Byte :=
  [80, 111, 116, 105, 111, 110, 95, 73, 110, 105, 116, 95] ++ base (f.take 1 ++ (f.drop 1).takeWhile (· ≠ dot))

/-- What happens: a message, the source text at a path is parsed, compiled and run, the function in a shared object is called,
or a read outside of a buffer. -/
inductive Event
  | message
  | run (path : Path) (source : List Byte)
  | init (path : Path) (function : List Byte)
  | crash
  deriving DecidableEq

variable {D : Type}

/-- load.c:16-51 `potion_load_code`. -/
def loadCode (F : Dump.Fmt D) (fs : Fs) (f : Path) : List Event :=
  match fs f with
  | none => [.message]
  | some buf => match Dump.load F buf with
    | .nil => [.run f buf]
    | .fn _ => []
    | .crash => [.crash]

/-- load.c:172-185: the bytes after the last dot; the whole name if there is none; `none` if that is the first byte. -/
def extOf (f : Path) : Option Path :=
  let e := (f.reverse.takeWhile (· ≠ dot)).reverse
  if e.length = f.length then some f
  else if e.length + 1 = f.length then none
  else some e

/-- load.c:163-189 `potion_load`. -/
def load (F : Dump.Fmt D) (fs : Fs) (junk : Nat → List Byte) (paths : List Path) (str : List Byte) : List Byte × List Event :=
  match findFile fs junk paths str with
  | (str, none) => (str, [.message])
  | (str, some h) => (str, match extOf h.path with
    | none => [.message]
    | some e =>
      if e = pn.drop 1 then loadCode F fs h.path
      else if e = pnb.drop 1 then loadCode F fs h.path
      else if e = so.drop 1 then [.init h.path (initName h.path)]
      else [.message])

end Potion.Load
