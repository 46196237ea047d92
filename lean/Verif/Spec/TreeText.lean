import Verif.Model.Peg
import Verif.Spec.Show
/-!
Specification for C80: the text of the tree of a program, as `potion -V` prints it: the kind of a node, then its operands, in parentheses if the kind has more
than one, strings in quotes.
-/
namespace Potion.Show
open Potion Potion.Spec Potion.Peg

mutual
/-- The tree of a program in memory: nodes with their lines, tuples of trees, strings, nil, and other values by their texts (C63, C76). -/
inductive Src
  | nil
  | str (s : List (BitVec 8))
  | other (s : List (BitVec 8))
  | tup (l : Srcs)
  | node (k : Kind) (line : Nat) (a b c : Src)
inductive Srcs
  | nil
  | cons (t : Src) (l : Srcs)
end

def Src.isNil : Src → Bool
  | .nil => true
  | _ => false
def Src.isStr : Src → Bool
  | .str _ => true
  | _ => false
/-- The line of a node. -/
def Src.line : Src → Option Nat
  | .node _ n _ _ _ => some n
  | _ => none

/-- The name of a kind of node. -/
def kindName (k : Kind) : String := match k with
  | .code => "code" | .value => "value" | .assign => "assign" | .not => "not" | .or => "or" | .and => "and" | .cmp => "cmp" | .eq => "eq" | .neq => "neq"
  | .gt => "gt" | .gte => "gte" | .lt => "lt" | .lte => "lte" | .pipe => "pipe" | .caret => "caret" | .amp => "amp" | .wavy => "wavy" | .bitl => "bitl"
  | .bitr => "bitr" | .plus => "plus" | .minus => "minus" | .inc => "inc" | .times => "times" | .div => "div" | .rem => "rem" | .pow => "pow"
  | .msg => "msg" | .path => "path" | .query => "query" | .pathq => "pathq" | .expr => "expr" | .list => "list" | .block => "block" | .lick => "lick"
  | .proto => "proto"
/-- Number of operands. -/
def operands (k : Kind) : Nat := match k with
  | .value | .msg | .lick => 3
  | .code | .not | .wavy | .path | .query | .pathq | .expr | .list | .block => 1
  | _ => 2

/-- A new line after an operand that begins on a later line than what came before. -/
def broken (line : Nat) (t : Src) : List (BitVec 8) := match t.line with
  | some n => if n > line then chars "\n" else []
  | none => []
def later (line : Nat) (t : Src) : Nat := match t.line with
  | some n => max line n
  | none => line

/-- Nil at the end is left out if the text before it is of at most 14 characters. -/
def short (s : List (BitVec 8)) : Bool := decide (s.length ≤ 14)

mutual
def Src.text : Src → List (BitVec 8)
  | .nil => chars "nil"
  | .str s => s
  | .other s => s
  | .tup l => chars "(" ++ listed l.texts ++ chars ")"
  | .node k n a b c =>
    let qa := (if a.isStr then chars "\"" ++ a.text ++ chars "\"" else a.text) ++ broken n a
    let qb := chars " " ++ (if b.isStr then chars "\"" ++ b.text ++ chars "\"" else b.text) ++ broken (later n a) b
    let qc := chars " " ++ (if c.isStr then chars "\"" ++ c.text ++ chars "\"" else c.text) ++ broken (later (later n a) b) c
    let x := chars (kindName k) ++ chars " (" ++ qa
    if operands k = 1 then chars (kindName k) ++ chars " " ++ qa
    else if operands k = 2 then (if b.isNil && short x then x else x ++ qb) ++ chars ")"
    else if b.isNil && c.isNil then (if short x then x else x ++ qb ++ qc) ++ chars ")"
    else (if c.isNil && short (x ++ qb) then x ++ qb else x ++ qb ++ qc) ++ chars ")"
def Srcs.texts : Srcs → List (List (BitVec 8))
  | .nil => []
  | .cons t l => t.text :: l.texts
end

end Potion.Show
