import Verif.Spec.SigBack
import Verif.Model.CompileAll
import Mathlib.Data.Nat.Log
/-!
Specification for C82: the listing of a function, as `potion -V` prints it: a heading, its constants and variables with their numbers, the listings of the
functions written in it, and one line for each instruction.
-/
namespace Potion.Show
open Potion
open Potion.Spec hiding Op
open Potion.Sig
open Potion.CompileAll (Ins Op)

mutual
/-- A compiled function: name, declared parameters, number of registers, paths (numbers of constants), names of locals and of captured variables, constants by their
texts (C63, C76), functions written in it, instructions. -/
inductive LFn
  | mk (name : Option (List (BitVec 8))) (sig : List Decl) (stack : Nat) (paths : List Nat) (locals upvals values : List (List (BitVec 8))) (protos : LFns) (code : List Ins)
inductive LFns
  | nil
  | cons (f : LFn) (l : LFns)
end

/-- A number in decimal. -/
def natural (n : Nat) : List (BitVec 8) := (digits n).map digitChar
def integer (i : Int) : List (BitVec 8) := (Datum.int i).text

def opName : Op → String
  | .none => "noop" | .move => "move" | .loadk => "loadk" | .loadpn => "loadpn" | .self => "self" | .newtuple => "newtuple" | .gettuple => "gettuple"
  | .settuple => "settuple" | .getlocal => "getlocal" | .setlocal => "setlocal" | .getupval => "getupval" | .setupval => "setupval" | .global => "global"
  | .gettable => "gettable" | .settable => "settable" | .newlick => "newlick" | .getpath => "getpath" | .setpath => "setpath" | .add => "add" | .sub => "sub"
  | .mult => "mult" | .div => "div" | .rem => "mod" | .pow => "pow" | .not => "not" | .cmp => "cmp" | .eq => "eq" | .neq => "neq" | .lt => "lt" | .lte => "lte"
  | .gt => "gt" | .gte => "gte" | .bitn => "bitn" | .bitl => "bitl" | .bitr => "bitr" | .def => "def" | .bind => "bind" | .msg => "msg" | .jmp => "jump"
  | .test => "test" | .testjmp => "testjmp" | .notjmp => "notjmp" | .named => "named" | .call => "call" | .callset => "callset" | .tailcall => "tailcall"
  | .ret => "return" | .proto => "proto" | .class => "class" | .debug => "debug"
/-- Whether the second operand is shown. -/
def two : Op → Bool
  | .none | .self | .not | .jmp | .ret => false
  | _ => true

/-- Blanks before or after a text up to a width. -/
def padLeft (w : Nat) (s : List (BitVec 8)) : List (BitVec 8) := List.replicate (w - s.length) 0x20#8 ++ s
def padRight (w : Nat) (s : List (BitVec 8)) : List (BitVec 8) := s ++ List.replicate (w - s.length) 0x20#8

/-- The text of the immediate an instruction loads. -/
def immediate (b : Int) : List (BitVec 8) :=
  if b % 2 = 1 then integer (b / 2) else chars (if b = 0 then "nil" else if b = 2 then "false" else "true")

/-- The remark about instruction `k` (from 0): where it jumps to, what it loads, the name of the variable. Lines are numbered from 1. -/
def remark (locals values : List (List (BitVec 8))) (k : Nat) (i : Ins) : List (BitVec 8) := match i.op with
  | .jmp => chars "; to " ++ integer (k + i.a + 2)
  | .testjmp | .notjmp => chars "; to " ++ integer (k + i.b + 2)
  | .loadpn => chars "; " ++ immediate i.b
  | .loadk => chars "; " ++ values.getD i.b.toNat []
  | .setlocal | .getlocal => chars "; " ++ locals.getD i.b.toNat []
  | _ => []

/-- The line of instruction `k` of `n`: its number, name and operands; the remark begins in column 20, or one blank after the operands. -/
def line (locals values : List (List (BitVec 8))) (n k : Nat) (i : Ins) : List (BitVec 8) :=
  let s := chars "[" ++ padLeft (Nat.clog 10 n) (natural (k + 1)) ++ chars "] " ++ padRight 8 (chars (opName i.op)) ++ chars " " ++ integer i.a ++
    (if two i.op then chars " " ++ integer i.b else [])
  (if s.length < 20 then padRight 20 s else s ++ chars " ") ++ remark locals values k i ++ chars "\n"

def lines (locals values : List (List (BitVec 8))) (n : Nat) : Nat → List Ins → List (BitVec 8)
  | _, [] => []
  | k, i :: l => line locals values n k i ++ lines locals values n (k + 1) l

/-- The rows of a section, numbered from `k`. -/
def rows (head : String) : Nat → List (List (BitVec 8)) → List (BitVec 8)
  | _, [] => []
  | k, v :: l => chars head ++ v ++ chars " ; " ++ natural k ++ chars "\n" ++ rows head (k + 1) l

mutual
def LFn.text : LFn → List (BitVec 8)
  | .mk name sig stack paths locals upvals values protos code =>
    chars "; function definition: " ++ natural (4 * code.length) ++ chars " bytes\n" ++
    chars "; " ++ name.getD [] ++ chars "(" ++ sigText sig ++ chars ") " ++ natural stack ++ chars " registers\n" ++
    rows ".path /" 0 (paths.map fun p => values.getD p []) ++ rows ".local " 0 locals ++ rows ".upval " 0 upvals ++ rows ".value " 0 values ++
    protos.text ++ lines locals values code.length 0 code ++ chars "; function end\n"
def LFns.text : LFns → List (BitVec 8)
  | .nil => []
  | .cons f l => f.text ++ l.text
end

/-- An instruction as the compiler makes them: operands of 12 bits, constants and variables that exist, immediates. -/
def InsOk (locals values : List (List (BitVec 8))) (i : Ins) : Prop :=
  (-2048 ≤ i.a ∧ i.a < 2048) ∧ (-2048 ≤ i.b ∧ i.b < 2048) ∧
  (i.op = .loadk → 0 ≤ i.b ∧ i.b < values.length) ∧ (i.op = .setlocal ∨ i.op = .getlocal → 0 ≤ i.b ∧ i.b < locals.length) ∧
  (i.op = .loadpn → i.b % 2 = 1 ∨ i.b = 0 ∨ i.b = 2 ∨ i.b = 6)

mutual
def LFn.Ok : LFn → Prop
  | .mk _ sig stack paths locals _ values protos code => (∀ d ∈ sig, d.Plain) ∧ stack < 2 ^ 31 ∧ (∀ p ∈ paths, p < values.length) ∧
    (∀ i ∈ code, InsOk locals values i) ∧ protos.Ok
def LFns.Ok : LFns → Prop
  | .nil => True
  | .cons f l => f.Ok ∧ l.Ok
end

end Potion.Show
