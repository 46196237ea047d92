import Verif.Model.Decimal
/-!
Model of the parsers greg generates (/repo/tools/compile.c 184-380, 683-745): parsing expressions over bytes. A rule is
a C function; alternatives are tried in order and the position is restored before the next one; repetition is greedy and
never given back. The actions, which the code runs after the whole input has matched, are functions from the values of
the parts to the value of the whole.
Simplifications: no line numbers; the value of a variable no part was assigned to is `stale` (greg's value stack is not
cleared, compile.c:813-824).
-/
namespace Potion.Peg
open Potion

/-- potion.h `enum PN_AST`: kinds of syntax tree nodes. -/
inductive Kind
  | code | value | assign | not | or | and | cmp | eq | neq | gt | gte | lt | lte | pipe | caret | amp | wavy
  | bitl | bitr | plus | minus | inc | times | div | rem | pow | msg | path | query | pathq | expr | list | block | lick
  | proto
  deriving DecidableEq, Repr

/-- A value of the parser: an immediate, a string, a double (the text given to `strtod`), a tuple, a `struct PNSource`;
`pair`, `tag` and `none` are used between rules only. -/
inductive Tree
  | imm (w : PN)
  | str (s : List Byte)
  | dbl (text : List Byte)
  | tup (l : List Tree)
  | node (k : Kind) (a b c : Tree)
  | stale
  | error
  | none
  | pair (a b : Tree)

def Tree.nil : Tree := .imm PN_NIL

/-- The rules that are (mutually) recursive; the others are definitions in Model/Syntax.lean. -/
inductive NT
  | statements | stmt | sets | eqs | cmps | bitors | bitand | bitshift | sum | product | power | expr | atom | call
  | extern | name | lickItems | lickItem | loose | closure | list | block | lick | group | tuple | value | unqChar
  deriving DecidableEq, Repr

/-- Parsing expressions: a byte satisfying a test, a string, the empty string, sequence, ordered choice, `e*`, `!e`, a rule,
`< e >` (the text matched), an action. -/
inductive PExp
  | chr (p : Byte → Bool)
  | lit (s : List Byte)
  | eps
  | seq (a b : PExp)
  | alt (a b : PExp)
  | star (a : PExp)
  | not (a : PExp)
  | nt (n : NT)
  | cap (a : PExp)
  | act (f : Tree → Tree) (a : PExp)

/-- compile.c:707-720 `yymatchString`. -/
def matchLit : List Byte → List Byte → Option (List Byte)
  | [], i => some i
  | _ :: _, [] => none
  | c :: cs, b :: bs => if c = b then matchLit cs bs else none

/-- Failure, or a value and the rest of the input. -/
abbrev Res := Option (Tree × List Byte)

/-- The result of parsing `i` with `e`; the outer `none`: more than `fuel` nested steps. -/
def run (rule : NT → PExp) : (fuel : Nat) → PExp → (i : List Byte) → Option Res
  | 0, _, _ => none
  | f+1, .chr p, i => match i with
    | [] => some none
    | b :: bs => some (if p b then some (.none, bs) else none)
  | f+1, .lit s, i => some ((matchLit s i).map fun r => (.none, r))
  | f+1, .eps, i => some (some (.none, i))
  | f+1, .seq a b, i => match run rule f a i with
    | none => none
    | some none => some none
    | some (some (v, i')) => match run rule f b i' with
      | none => none
      | some none => some none
      | some (some (w, i'')) => some (some (.pair v w, i''))
  | f+1, .alt a b, i => match run rule f a i with
    | none => none
    | some none => run rule f b i
    | some (some r) => some (some r)
  | f+1, .star a, i => match run rule f a i with
    | none => none
    | some none => some (some (.tup [], i))
    | some (some (v, i')) => match run rule f (.star a) i' with
      | none => none
      | some none => some none
      | some (some (.tup l, i'')) => some (some (.tup (v :: l), i''))
      | some (some (_, i'')) => some (some (.tup [v], i''))
  | f+1, .not a, i => match run rule f a i with
    | none => none
    | some none => some (some (.none, i))
    | some (some _) => some none
  | f+1, .nt n, i => run rule f (rule n) i
  | f+1, .cap a, i => match run rule f a i with
    | none => none
    | some none => some none
    | some (some (_, i')) => some (some (.str (i.take (i.length - i'.length)), i'))
  | f+1, .act g a, i => match run rule f a i with
    | none => none
    | some none => some none
    | some (some (v, i')) => some (some (g v, i'))

end Potion.Peg
