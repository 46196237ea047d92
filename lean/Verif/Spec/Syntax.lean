import Verif.Model.Peg
import Verif.Spec.Decimal
import Verif.Spec.Quoted
/-!
Specification of the program text: which texts are programs and the tree each of them stands for, as a context-free
grammar with a table of precedences. `Reads c s t`: the text `s` is a phrase of category `c` with tree `t`. It does not
say how the text is to be searched for phrases. A phrase begins and ends with a character that is not white space.
-/
namespace Potion.Spec
open Potion.Peg (Tree Kind)

/-- The bytes of an ASCII string. -/
def chars (s : String) : List (BitVec 8) := s.toList.map fun c => BitVec.ofNat 8 c.toNat

/-! ### White space -/

/-- Blanks within a line. -/
def blanks : List (BitVec 8) := [0x20, 0x09, 0x0B, 0x0C]
def newlines : List (BitVec 8) := [0x0A, 0x0D]
/-- A character of a comment: a tab or printable ASCII. -/
def Printable (c : BitVec 8) : Prop := c = 0x09#8 ∨ (0x20 ≤ c.toNat ∧ c.toNat ≤ 0x7E)
def Blank (w : List (BitVec 8)) : Prop := ∀ c ∈ w, c ∈ blanks

/-- Blanks, newlines, comments that end with their line, and, if `comma`, commas. -/
inductive Gap (comma : Bool) : List (BitVec 8) → Prop
  | nil : Gap comma []
  | char {c w} : c ∈ blanks ∨ c ∈ newlines ∨ (comma = true ∧ c = 0x2C#8) → Gap comma w → Gap comma (c :: w)
  | comment {s n w} : (∀ c ∈ s, Printable c) → n ∈ newlines → Gap comma w → Gap comma (0x23#8 :: (s ++ n :: w))

/-- What may stand between a phrase and the text `k` after it on the same line: blanks, and a comment at the end of the
line. -/
def Space (w k : List (BitVec 8)) : Prop :=
  Blank w ∨ ∃ b s, w = b ++ 0x23#8 :: s ∧ Blank b ∧ (∀ c ∈ s, Printable c) ∧ (k = [] ∨ ∃ c r, k = c :: r ∧ c ∈ newlines)

/-- What separates statements: a comma or a newline, with white space and further commas. -/
def Separator (s : List (BitVec 8)) : Prop := ∃ c w, s = c :: w ∧ (c = 0x2C#8 ∨ c ∈ newlines) ∧ Gap true w

/-! ### Operators -/

inductive Bin | or | and | cmp | eq | neq | gte | gt | lte | lt | caret | amp | bitl | bitr | plus | minus | times | div | rem | pow
  deriving DecidableEq, Repr

/-- The table of precedences: a higher level binds tighter. Level 1 is assignment. -/
def Bin.level : Bin → Nat
  | .or | .and => 0
  | .cmp | .eq | .neq => 2
  | .gte | .gt | .lte | .lt => 3
  | .caret => 4
  | .amp => 5
  | .bitl | .bitr => 6
  | .plus | .minus => 7
  | .times | .div | .rem => 8
  | .pow => 9

def Bin.spellings : Bin → List String
  | .or => ["or"] | .and => ["and", "&&"] | .cmp => ["<=>"] | .eq => ["=="] | .neq => ["!="] | .gte => [">="]
  | .gt => [">"] | .lte => ["<="] | .lt => ["<"] | .caret => ["^"] | .amp => ["&"] | .bitl => ["<<"] | .bitr => [">>"]
  | .plus => ["+"] | .minus => ["-"] | .times => ["*"] | .div => ["/"] | .rem => ["%"] | .pow => ["**"]

def Bin.kind : Bin → Kind
  | .or => .or | .and => .and | .cmp => .cmp | .eq => .eq | .neq => .neq | .gte => .gte | .gt => .gt | .lte => .lte
  | .lt => .lt | .caret => .caret | .amp => .amp | .bitl => .bitl | .bitr => .bitr | .plus => .plus | .minus => .minus
  | .times => .times | .div => .div | .rem => .rem | .pow => .pow

/-- The operators of `x op= e`. -/
def Bin.assigns : Bin → Bool
  | .cmp | .eq | .neq | .gte | .gt | .lte | .lt => false
  | _ => true

/-- Operators spelled with letters. -/
def isWordOp (s : String) : Bool := s == "or" || s == "and"

/-! ### Names -/

def isLetter (c : BitVec 8) : Bool :=
  let n := c.toNat
  (65 ≤ n && n ≤ 90) || (97 ≤ n && n ≤ 122) || n == 95 || n == 36 || n == 64
def isDigitChar (c : BitVec 8) : Bool := 48 ≤ c.toNat && c.toNat ≤ 57

/-- A name: an ASCII letter, `_`, `$` or `@`, and any number of these and digits; not a reserved word, and not beginning
with `extern` (see `C51_refuted_extern`). -/
def IsName (x : List (BitVec 8)) : Prop :=
  (∃ c r, x = c :: r ∧ isLetter c = true ∧ ∀ d ∈ r, isLetter d = true ∨ isDigitChar d = true) ∧
  (∀ s ∈ ["nil", "true", "false", "and", "or", "not"], x ≠ chars s) ∧ ∀ r, x ≠ chars "extern" ++ r

/-- A word: as a name, reserved or not. -/
def IsWord (x : List (BitVec 8)) : Prop :=
  ∃ c r, x = c :: r ∧ isLetter c = true ∧ ∀ d ∈ r, isLetter d = true ∨ isDigitChar d = true

/-! ### Numbers -/

/-- A decimal number without leading zeros. -/
def IsInt (ds : List Nat) : Prop := (∀ d ∈ ds, d < 10) ∧ (ds = [0] ∨ ∃ d r, ds = d :: r ∧ d ≠ 0)
def IsDigits (x : List (BitVec 8)) : Prop := x ≠ [] ∧ ∀ c ∈ x, isDigitChar c = true
def IsFraction (x : List (BitVec 8)) : Prop := ∃ y, x = chars "." ++ y ∧ IsDigits y
/-- The sign of an exponent is not optional. -/
def IsExponent (x : List (BitVec 8)) : Prop := ∃ s y, s ∈ ["-", "+"] ∧ x = chars "e" ++ (chars s ++ y) ∧ IsDigits y
/-- What makes a number a floating point number: a fraction, an exponent or both. -/
def IsTail (x : List (BitVec 8)) : Prop := IsFraction x ∨ IsExponent x ∨ ∃ f e, x = f ++ e ∧ IsFraction f ∧ IsExponent e

/-! ### Trees -/

/-- A node with one, two or three parts. -/
def node1 (k : Kind) (a : Tree) : Tree := .node k a (.imm PN_NIL) (.imm PN_NIL)
def node2 (k : Kind) (a b : Tree) : Tree := .node k a b (.imm PN_NIL)
/-- An operand is a list of messages, the first of which is the receiver. -/
def operand (a : Tree) (l : List Tree) : Tree := node1 .expr (.tup (a :: l))

/-- The beginning of a message: `name`, `name?`, a path `/name`, a query `?name` or a query of a path `?/name`. -/
inductive IsHead : List (BitVec 8) → Kind → List (BitVec 8) → Prop
  | name {x} : IsName x → IsHead x .msg x
  | nameQ {x} : IsName x → IsHead (x ++ chars "?") .msg (x ++ chars "?")
  | path {x} : IsWord x → IsHead (chars "/" ++ x) .path x
  | query {g x} : Gap false g → IsWord x → IsHead (chars "?" ++ (g ++ x)) .query x
  | pathq {g x} : Gap false g → IsWord x → IsHead (chars "?" ++ (g ++ (chars "/" ++ x))) .pathq x

/-! ### Phrases -/

inductive Cat
  | ex (level : Nat)     -- expressions with operators of that level and above; 10: none
  | lit                  -- numbers, strings, nil, true, false
  | arg                  -- literals after a message
  | atom                 -- what can be a receiver
  | call                 -- a message with its arguments
  | calls                -- any number of messages
  | list                 -- ( ... )
  | block                -- : ... .
  | blockOpt
  | stmts                -- one or more statements

inductive Reads : Cat → List (BitVec 8) → Tree → Prop
  /-- Decimal numbers. -/
  | int {ds} : IsInt ds → Reads .lit (ds.map digitChar) (node1 .value (.imm (pnNum (numeral 10 ds))))
  | nil : Reads .lit (chars "nil") (node1 .value (.imm PN_NIL))
  | true : Reads .lit (chars "true") (node1 .value (.imm PN_TRUE))
  | false : Reads .lit (chars "false") (node1 .value (.imm PN_FALSE))
  /-- Hexadecimal numbers. -/
  | hex {ds cs} : List.Forall₂ HexChar ds cs → ds ≠ [] → Reads .lit (chars "0x" ++ cs) (node1 .value (.imm (pnNum (numeral 16 ds))))
  /-- Floating point numbers; the tree keeps the text. -/
  | dbl {ds x} : IsInt ds → IsTail x → Reads .lit (ds.map digitChar ++ x) (node1 .value (.dbl (ds.map digitChar ++ x)))
  /-- Strings. -/
  | str {s v} : IsString s v → Reads .lit s (node1 .value (.str v))
  /-- `(statements)` -/
  | list0 {g} : Gap Bool.false g → Reads .list (chars "(" ++ (g ++ chars ")")) (node1 .list (.imm PN_NIL))
  | list {g s t w} : Gap Bool.false g → Reads .stmts s t → Space w (chars ")") →
      Reads .list (chars "(" ++ (g ++ (s ++ (w ++ chars ")")))) (node1 .list t)
  /-- `: statements .` -/
  | block0 {g} : Gap Bool.false g → Reads .block (chars ":" ++ (g ++ chars ".")) (node1 .block (.imm PN_NIL))
  | block {g s t w} : Gap Bool.false g → Reads .stmts s t → Space w (chars ".") →
      Reads .block (chars ":" ++ (g ++ (s ++ (w ++ chars ".")))) (node1 .block t)
  | noBlock : Reads .blockOpt [] (.imm PN_NIL)
  | someBlock {w s t} : Blank w → Reads .block s t → Reads .blockOpt (w ++ s) t
  /-- Literals after a message may have a minus sign: `name -5`. -/
  | argLit {s v} : Reads .lit s v → Reads .arg s v
  | argNeg {ds} : IsInt ds → ds ≠ [0] → Reads .arg (chars "-" ++ ds.map digitChar) (node1 .value (.imm (pnNum (-(numeral 10 ds : Int)))))
  | argNegDbl {ds x} : IsInt ds → ds ≠ [0] → IsTail x →
      Reads .arg (chars "-" ++ (ds.map digitChar ++ x)) (node1 .value (.dbl (chars "-" ++ (ds.map digitChar ++ x))))
  /-- `name`, `name 5`, `name (a, b)`, each with or without a block -/
  | call0 {h k x s b} : IsHead h k x → Reads .blockOpt s b → Reads .call (h ++ s) (.node k (.str x) (.imm PN_NIL) b)
  | callLit {h k x w s v s' b} : IsHead h k x → Blank w → w ≠ [] → Reads .arg s v → Reads .blockOpt s' b →
      Reads .call (h ++ (w ++ (s ++ s'))) (.node k (.str x) v b)
  | callList {h k x w s v s' b} : IsHead h k x → Blank w → Reads .list s v → Reads .blockOpt s' b →
      Reads .call (h ++ (w ++ (s ++ s'))) (.node k (.str x) v b)
  | calls0 : Reads .calls [] (.tup [])
  | calls {w s c s' l} : Blank w → w ≠ [] → Reads .call s c → Reads .calls s' (.tup l) → Reads .calls (w ++ (s ++ s')) (.tup (c :: l))
  /-- Receivers: literals, functions `(x): x + 1.`, lists, messages without a receiver. -/
  | atomLit {s v} : Reads .lit s v → Reads .atom s v
  | atomFn {s t w s' b} : Reads .list s t → Blank w → Reads .block s' b → Reads .atom (s ++ (w ++ s')) (node2 .proto t b)
  | atomList {s t} : Reads .list s t → Reads .atom s t
  | atomCall {s c} : Reads .call s c → Reads .atom s c
  /-- Operands: a receiver and messages to it. -/
  | operand {s a s' l} : Reads .atom s a → Reads .calls s' (.tup l) → Reads (.ex 10) (s ++ s') (operand a l)
  /-- `not e`, `!e`, `~e` apply to the operand after them only. -/
  | not {sp g s e} : sp ∈ ["not", "!"] → Gap Bool.false g → (sp = "not" → g ≠ []) → Reads (.ex 10) s e →
      Reads (.ex 10) (chars sp ++ (g ++ s)) (operand (node1 .not e) [])
  | bitnot {g s e} : Gap Bool.false g → Reads (.ex 10) s e → Reads (.ex 10) (chars "~" ++ (g ++ s)) (operand (node1 .wavy e) [])
  /-- `-a` is `0 - a`. -/
  | neg {g s a s' l} : Gap Bool.false g → Reads .atom s a → Reads .calls s' (.tup l) →
      Reads (.ex 10) (chars "-" ++ (g ++ (s ++ s'))) (operand (node2 .minus (node1 .value (.imm (pnNum 0))) a) l)
  | pos {g s a s' l} : Gap Bool.false g → Reads .atom s a → Reads .calls s' (.tup l) →
      Reads (.ex 10) (chars "+" ++ (g ++ (s ++ s'))) (operand (node2 .plus (node1 .value (.imm (pnNum 0))) a) l)
  /-- `++a`, `--a`: the amount has its tag bit cleared; `a++`, `a--`. -/
  | preInc {w s a s' l} : Blank w → Reads .atom s a → Reads .calls s' (.tup l) →
      Reads (.ex 10) (chars "++" ++ (w ++ (s ++ s'))) (operand (node2 .inc a (.imm (pnNum 1 ^^^ 1#64))) l)
  | preDec {w s a s' l} : Blank w → Reads .atom s a → Reads .calls s' (.tup l) →
      Reads (.ex 10) (chars "--" ++ (w ++ (s ++ s'))) (operand (node2 .inc a (.imm (pnNum (-1) ^^^ 1#64))) l)
  | postInc {s a w s' l} : Reads .atom s a → Blank w → Reads .calls s' (.tup l) →
      Reads (.ex 10) (s ++ (w ++ (chars "++" ++ s'))) (operand (node2 .inc a (.imm (pnNum 1))) l)
  | postDec {s a w s' l} : Reads .atom s a → Blank w → Reads .calls s' (.tup l) →
      Reads (.ex 10) (s ++ (w ++ (chars "--" ++ s'))) (operand (node2 .inc a (.imm (pnNum (-1)))) l)
  /-- An operator of level `ℓ` takes on its left an expression of level `ℓ` or above, on its right one of a level above:
  operators of a level group from the left. An operator is followed by white space; one spelled with letters also
  preceded by it. -/
  | up {ℓ s t} : ℓ < 10 → Reads (.ex (ℓ + 1)) s t → Reads (.ex ℓ) s t
  | bin {s a w o sp g s' b} : Reads (.ex (Bin.level o)) s a → Blank w → sp ∈ Bin.spellings o → (isWordOp sp = Bool.true → w ≠ []) →
      Gap Bool.false g → g ≠ [] → Reads (.ex (Bin.level o + 1)) s' b →
      Reads (.ex (Bin.level o)) (s ++ (w ++ (chars sp ++ (g ++ s')))) (node2 o.kind a b)
  /-- Assignments group from the right. -/
  | assign {s a w g s' b} : Reads (.ex 2) s a → Blank w → Gap Bool.false g → Reads (.ex 1) s' b →
      Reads (.ex 1) (s ++ (w ++ (chars "=" ++ (g ++ s')))) (node2 .assign a b)
  | assignOp {s a w o sp g s' b} : Reads (.ex 2) s a → Blank w → Bin.assigns o = Bool.true → sp ∈ Bin.spellings o →
      (isWordOp sp = Bool.true → w ≠ []) → Gap Bool.false g → Reads (.ex 1) s' b →
      Reads (.ex 1) (s ++ (w ++ (chars sp ++ (chars "=" ++ (g ++ s'))))) (node2 .assign a (node2 o.kind a b))
  /-- Statements; the last may be followed by a separator. -/
  | one {s a} : Reads (.ex 0) s a → Reads .stmts s (.tup [a])
  | oneSep {s a w sp} : Reads (.ex 0) s a → Space w sp → Separator sp → Reads .stmts (s ++ (w ++ sp)) (.tup [a])
  | more {s a w sp s' l} : Reads (.ex 0) s a → Space w sp → Separator sp → Reads .stmts s' (.tup l) →
      Reads .stmts (s ++ (w ++ (sp ++ s'))) (.tup (a :: l))

/-- A program: white space, statements, white space. -/
inductive IsProgram : List (BitVec 8) → Tree → Prop
  | empty {g} : Gap Bool.false g → IsProgram g (node1 .code (.imm PN_NIL))
  | stmts {g s t w} : Gap Bool.false g → Reads .stmts s t → Space w [] → IsProgram (g ++ (s ++ w)) (node1 .code t)

end Potion.Spec
