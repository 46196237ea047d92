import Verif.Model.Load
/-!
Model of the command `potion` (/repo/core/potion.c 74-251, 253-429), release build (no `-D`), not SANDBOX, not STATIC.
An argument vector is the list of the arguments after the program name, each the bytes before its NUL; what follows the last
one is a null pointer, and passing it to `potion_str` is a `crash`. The file system maps names to contents; all files can be
read, and written. What the text of a program is compiled into is a parameter. Not modelled: the messages of `-V`, the
interactive loop, targets of `--compile=` other than bytecode.
-/
namespace Potion.Cli
open Potion

abbrev Arg := List Byte

/-- The bytes of an ASCII string. -/
def lit (s : String) : List Byte := s.toList.map fun c => BitVec.ofNat 8 c.toNat

/-- potion.h:614-620 `exec_mode_t`. -/
def execVm : Nat := 0
def execJit : Nat := 1
def execDebug : Nat := 2
def execCheck : Nat := 3
def execCompile : Nat := 4
/-- potion.h:625, 639-640. -/
def debugInspect : Nat := 2 ^ 6
def debugVerbose : Nat := 2 ^ 7

/-- The variables of `main` (potion.c:272-277), `P->flags`, the directories `-L` added, and the options complained about. -/
structure State where
  flags : Nat
  exec : Nat
  buf : Option (List Byte)
  compile : Option (List Byte)
  addmodules : Option (List Byte)
  dirs : List Arg
  unknown : List Arg
  deriving DecidableEq

/-- potion.c:275 `POTION_JIT ? EXEC_JIT : EXEC_VM`. -/
def initial (jit : Bool) : State := ⟨0, if jit then execJit else execVm, none, none, none, [], []⟩

/-- `strchr(name, '=')`: what is before and what is after the first `=`. -/
def splitEq (name : List Byte) : List Byte × Option (List Byte) :=
  match name.dropWhile (· ≠ 0x3D#8) with
  | [] => (name, none)
  | _ :: args => (name.takeWhile (· ≠ 0x3D#8), some args)

/-- potion.c:253-267 `addmodule`. Its parameter `result` is not used. -/
def addmodule (prefix_ : Option (List Byte)) (name : List Byte) : List Byte :=
  let (name, args) := splitEq name
  (match prefix_ with
    | some p => lit "load \"" ++ p ++ lit "/" ++ name ++ lit "\"\n"
    | none => lit "load \"" ++ name ++ lit "\"\n") ++
  (match args with
    | some a => name ++ lit "(" ++ a ++ lit ")\n"
    | none => name ++ lit "()\n")

/-- What the loop over the options ends with: a null pointer read or an access outside of an argument, an option that ends the program, or the state and the
arguments that are left. -/
inductive Scan
  | crash
  | done (what : Arg)
  | rest (s : State) (args : List Arg)
  deriving DecidableEq

/-- potion.c:287-391, the loop over the options. (`-L` with the directory in the same argument is never taken:
the comparison is with all of the argument. `--debug=` is compared in the same way, and then the bytes after its NUL are read
and written.) -/
def scan : State → List Arg → Scan
  | s, [] => .rest s []
  | s, a :: as =>
    if a = lit "--" then .rest s as
    else if a = lit "-I" ∨ a = lit "--inspect" then scan { s with flags := s.flags ||| debugInspect } as
    else if a = lit "-L" then
      match as with
      | [] => .crash
      | d :: as => scan { s with dirs := s.dirs ++ [d] } as
    else if a = lit "-V" ∨ a = lit "--verbose" then scan { s with flags := s.flags ||| debugVerbose } as
    else if a = lit "-v" ∨ a = lit "--version" then .done (lit "version")
    else if a = lit "-h" ∨ a = lit "--help" then .done (lit "help")
    else if a = lit "-s" ∨ a = lit "--stats" then .done (lit "stats")
    else if a = lit "--check" then scan { s with exec := execCheck } as
    else if a.take 10 = lit "--compile=" then scan { s with exec := execCompile, compile := some (a.drop 10) } as
    else if a = lit "--compile" ∨ a = lit "-c" then scan { s with exec := execCompile, compile := none } as
    else if a = lit "-B" ∨ a = lit "--bytecode" then scan { s with exec := execVm } as
    else if a = lit "-X" ∨ a = lit "--x86" then scan { s with exec := execJit } as
    else if a = lit "--debug" ∨ a = lit "-d" then scan { s with addmodules := some (addmodule none (lit "debug")), exec := execDebug } as
    else if a = lit "--debug=" then .crash
    else if a.take 2 = lit "-d" then
      if (a.drop 2).head? = some 0x3D#8 then scan { s with addmodules := some (addmodule none (lit "debug=" ++ a.drop 3)), exec := execDebug } as
      else scan { s with addmodules := some (addmodule (some (lit "debug")) (a.drop 2)), exec := execDebug } as
    else if a.take 2 = lit "-M" then scan { s with addmodules := some (addmodule none (a.drop 2)) } as
    else if a.head? = some 0x2D#8 then
      if (a.drop 1).head? = some 0x65#8 then
        match (if a.length = 2 then as.head? else some (a.drop 2)) with
        | none => .crash
        | some arg => scan { s with buf := some (s.addmodules.getD [] ++ arg) } as
      else scan { s with unknown := s.unknown ++ [a] } as
    else .rest s (a :: as)

/-- What `main` goes on to do (potion.c:392-424): `cmdExec` with these arguments and `argv`, the interactive loop, or the
message "no filename given". -/
inductive Task
  | crash
  | done (what : Arg)
  | code (flags : Nat) (text : List Byte) (compile : Option (List Byte)) (argv : List Arg) (dirs unknown : List Arg)
  | file (flags : Nat) (name : Arg) (compile : Option (List Byte)) (addcode : Option (List Byte)) (argv : List Arg) (dirs unknown : List Arg)
  | interactive
  | noFile
  deriving DecidableEq

/-- potion.c:392-424. -/
def task (jit : Bool) (args : List Arg) : Task :=
  match scan (initial jit) args with
  | .crash => .crash
  | .done w => .done w
  | .rest s rest =>
    let flags := s.flags + s.exec
    match s.buf, rest with
    | some text, rest => .code flags text s.compile (lit "-e" :: rest) s.dirs s.unknown
    | none, fn :: rest => .file flags fn s.compile s.addmodules (fn :: rest) s.dirs s.unknown
    | none, [] => if s.exec = 0 ∨ flags &&& debugInspect ≠ 0 then .noFile else .interactive

/-! ### Running a program -/

/-- What running the command shows. -/
inductive Event (D : Type)
  | message                                -- a message of the command
  | errors                                 -- the error of the parser or compiler is printed
  | ran (exec : Nat) (f : Dump.Fn D)       -- a function is run by the virtual machine or as machine code
  | wrote (name : Arg)                     -- "compiled code saved to"
  | other                                  -- a target that is not modelled
  | crash                                  -- memory outside of an object is read or written
  | fatal                                  -- the process ends with `PN_EXIT_FATAL`

/-- potion.c:79-117, the text of the program; none if there is no such file. -/
def sourceOf (fs : Load.Fs) (buf : Option (List Byte)) (filename : Option Arg) (addcode : Option (List Byte)) : Option (List Byte) :=
  match buf, filename with
  | some b, _ => some b
  | none, some fn => (fs fn).map fun c => addcode.getD [] ++ c
  | none, none => none

/-- A file is written. -/
def write (fs : Load.Fs) (name : Arg) (c : List Byte) : Load.Fs := fun p => if p = name then some c else fs p

/-- potion.c:168-214, `EXEC_COMPILE` to bytecode: the name has room for 254 characters; writing a larger one, or a dump that
does not fit (`Dump.dump`), is a crash. -/
def save {D} (F : Dump.Fmt D) (fs : Load.Fs) (name : Arg) (f : Dump.Fn D) : Load.Fs × List (Event D) :=
  if 255 < name.length + 2 then (fs, [.crash])
  else match Dump.dump F f with
    | none => (fs, [.crash])
    | some bs => (write fs (name ++ lit "b") bs, [.wrote (name ++ lit "b")])

/-- potion.c:119-166: load or compile the text, and then what the mode says. `front` is `potion_parse` and `compile`. -/
def execute {D} (F : Dump.Fmt D) (front : List Byte → Arg → Option (Dump.Fn D)) (fs : Load.Fs) (flags : Nat) (compile : Option (List Byte))
    (name : Arg) (text : List Byte) : Load.Fs × List (Event D) :=
  let exec := flags &&& 15
  match (match Dump.load F text with
    | .fn f => some (some f)
    | .nil => some (front text name)
    | .crash => none) with
  | none => (fs, [.crash])
  | some none => (fs, [.errors])
  | some (some f) =>
    if exec = execVm ∨ exec = execDebug ∨ exec = execJit then (fs, [.ran exec f])
    else if exec = execCompile then (match compile with
      | none => save F fs name f
      | some _ => (fs, [.other]))
    else (fs, [])

/-- potion.c:74-251 `potion_cmd_exec`. -/
def cmdExec {D} (F : Dump.Fmt D) (front : List Byte → Arg → Option (Dump.Fn D)) (fs : Load.Fs) (flags : Nat) (buf : Option (List Byte))
    (filename : Option Arg) (compile : Option (List Byte)) (addcode : Option (List Byte)) : Load.Fs × List (Event D) :=
  match sourceOf fs buf filename addcode with
  | none => (fs, [.message])
  | some text => execute F front fs flags compile (filename.getD (lit "-e")) text

def Event.isCrash {D} : Event D → Bool
  | .crash => true
  | _ => false

/-- The exit status after `potion_cmd_exec`, whose result is ignored. -/
def status {D} (r : Load.Fs × List (Event D)) : Option Nat := if r.2.any Event.isCrash then none else some 0

/-- potion.c:269-429 `main`: the files it leaves, what it shows, and the exit status (none: killed by a signal). -/
def main {D} (F : Dump.Fmt D) (front : List Byte → Arg → Option (Dump.Fn D)) (jit : Bool) (fs : Load.Fs) (args : List Arg) :
    Load.Fs × List (Event D) × Option Nat :=
  match task jit args with
  | .crash => (fs, [.crash], none)
  | .done _ => (fs, [.message], some 0)
  | .code flags text compile _ _ _ =>
    let r := cmdExec F front fs flags (some text) none compile (some [])
    (r.1, r.2, status r)
  | .file flags name compile addcode _ _ _ =>
    let r := cmdExec F front fs flags none (some name) compile addcode
    (r.1, r.2, status r)
  | .interactive => (fs, [.other], some 0)
  | .noFile => (fs, [.message, .fatal], some 2)

end Potion.Cli
