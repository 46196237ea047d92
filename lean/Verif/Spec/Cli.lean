import Verif.Model.Bytes
/-!
The command line of `potion` as the usage text (/repo/core/potion.c 25-45) and INTERNALS describe it: options, how they are
spelled, and what a sequence of them asks for. Independent of the program.
-/
namespace Potion.Spec.Cli
open Potion

/-- ASCII text. -/
def ascii (s : String) : List Byte := s.toList.map fun c => BitVec.ofNat 8 c.toNat

/-- What to do with the program. -/
inductive Mode
  | bytecode | jit | debug | check | compile
  deriving DecidableEq

/-- potion.h:614-620 `exec_mode_t`. -/
def Mode.number : Mode → Nat
  | .bytecode => 0
  | .jit => 1
  | .debug => 2
  | .check => 3
  | .compile => 4

/-- What `P->flags` says (potion.h:625, 639-640): the mode in the low four bits, bit 6: inspect, bit 7: verbose. -/
def Means (flags : Nat) (m : Mode) (inspect verbose : Bool) : Prop :=
  flags % 16 = m.number ∧ flags.testBit 6 = inspect ∧ flags.testBit 7 = verbose

instance (flags : Nat) (m : Mode) (i v : Bool) : Decidable (Means flags m i v) := inferInstanceAs (Decidable (_ ∧ _))

inductive Opt
  | inspect (long : Bool)
  | verbose (long : Bool)
  | dir (d : List Byte)                                           -- `-L d`
  | check
  | compile (long : Bool)
  | compileTo (target : List Byte)                                -- `--compile=target`
  | bytecode (long : Bool)
  | x86 (long : Bool)
  | debug (long : Bool)
  | debugArgs (args : List Byte)                                  -- `-d=args`
  | debugModule (name : List Byte) (args : Option (List Byte))    -- `-dname` or `-dname=args`
  | load (name : List Byte) (args : Option (List Byte))         -- `-Mname` or `-Mname=args`
  | code (text : List Byte)                                       -- `-etext`
  | unknown (word : List Byte)

/-- `name` or `name=args`. -/
def withArgs (name : List Byte) : Option (List Byte) → List Byte
  | none => name
  | some a => name ++ ascii "=" ++ a

/-- The arguments an option is spelled with. -/
def Opt.words : Opt → List (List Byte)
  | .inspect l => [ascii (if l then "--inspect" else "-I")]
  | .verbose l => [ascii (if l then "--verbose" else "-V")]
  | .dir d => [ascii "-L", d]
  | .check => [ascii "--check"]
  | .compile l => [ascii (if l then "--compile" else "-c")]
  | .compileTo t => [ascii "--compile=" ++ t]
  | .bytecode l => [ascii (if l then "--bytecode" else "-B")]
  | .x86 l => [ascii (if l then "--x86" else "-X")]
  | .debug l => [ascii (if l then "--debug" else "-d")]
  | .debugArgs a => [ascii "-d=" ++ a]
  | .debugModule n a => [ascii "-d" ++ withArgs n a]
  | .load n a => [ascii "-M" ++ withArgs n a]
  | .code t => [ascii "-e" ++ t]
  | .unknown w => [w]

/-- Words starting with a dash that are not options. -/
def NotAnOption (w : List Byte) : Prop :=
  w.head? = some 0x2D#8 ∧
  (∀ o ∈ ["--", "-I", "--inspect", "-L", "-V", "--verbose", "-v", "--version", "-h", "--help", "-s", "--stats", "--check", "--compile", "-c",
    "-B", "--bytecode", "-X", "--x86", "--debug", "--debug="], w ≠ ascii o) ∧
  ∀ o ∈ ["--compile=", "-d", "-M", "-e"], ¬ ascii o <+: w

/-- Module names are not empty after `-d` and have no `=`; the program after `-e` is not empty. -/
def Opt.Ok : Opt → Prop
  | .debugModule n _ => n ≠ [] ∧ 0x3D#8 ∉ n
  | .load n _ => 0x3D#8 ∉ n
  | .code t => t ≠ []
  | .unknown w => NotAnOption w
  | _ => True

/-- The mode an option chooses. -/
def Opt.mode : Opt → Option Mode
  | .check => some .check
  | .compile _ | .compileTo _ => some .compile
  | .bytecode _ => some .bytecode
  | .x86 _ => some .jit
  | .debug _ | .debugArgs _ | .debugModule .. => some .debug
  | _ => none

/-- The target of the compilation an option chooses. -/
def Opt.target : Opt → Option (Option (List Byte))
  | .compile _ => some none
  | .compileTo t => some (some t)
  | _ => none

/-- Code that loads a module and calls its initialiser with the arguments. -/
def loading (file name : List Byte) (args : Option (List Byte)) : List Byte :=
  ascii "load \"" ++ file ++ ascii "\"\n" ++ name ++ ascii "(" ++ args.getD [] ++ ascii ")\n"

/-- The code an option puts before the program. -/
def Opt.modules : Opt → Option (List Byte)
  | .debug _ => some (loading (ascii "debug") (ascii "debug") none)
  | .debugArgs a => some (loading (ascii "debug") (ascii "debug") (some a))
  | .debugModule n a => some (loading (ascii "debug/" ++ n) n a)
  | .load n a => some (loading n n a)
  | _ => none

def Opt.dirs : Opt → Option (List Byte)
  | .dir d => some d
  | _ => none

def Opt.code? : Opt → Option (List Byte)
  | .code t => some t
  | _ => none

def Opt.unknown? : Opt → Option (List Byte)
  | .unknown w => some w
  | _ => none

def Opt.isInspect : Opt → Bool
  | .inspect _ => true
  | _ => false

def Opt.isVerbose : Opt → Bool
  | .verbose _ => true
  | _ => false

/-- The command line of a sequence of options. -/
def spell (os : List Opt) : List (List Byte) := os.flatMap Opt.words

/-- The last choice counts. -/
def last {A : Type} (os : List Opt) (f : Opt → Option A) : Option A := (os.filterMap f).getLast?

/-- The mode a sequence of options chooses; `dflt` without one. -/
def mode (dflt : Mode) (os : List Opt) : Mode := (last os Opt.mode).getD dflt

/-- All the code options put before the program, in order. -/
def allModules (os : List Opt) : List Byte := (os.filterMap Opt.modules).flatten

/-- Whether an option names code to put before the program. -/
def Opt.hasModule (o : Opt) : Bool := o.modules.isSome

/-- The options end where an argument does not start with a dash, at the end, or after `--`. -/
inductive Ends : List (List Byte) → List (List Byte) → Prop
  | nil : Ends [] []
  | word (w : List Byte) (ws : List (List Byte)) : w.head? ≠ some 0x2D#8 → Ends (w :: ws) (w :: ws)
  | dashes (ws : List (List Byte)) : Ends (ascii "--" :: ws) ws

end Potion.Spec.Cli
