import Verif.Spec.Syntax
import Verif.Spec.Word
/-!
Specification of the text of a value (`string`), and of what a parsed text denotes.
-/
namespace Potion.Spec
open Potion.Peg (Tree)

mutual
/-- Values without cycles. A table is its pairs in the order of its buckets. -/
inductive Datum
  | nil
  | bool (b : Bool)
  | int (i : Int)
  | str (s : List (BitVec 8))
  | list (l : Data)
  | table (l : Pairs)
  | lick (name inner attr : Datum)
inductive Data
  | nil
  | cons (v : Datum) (l : Data)
inductive Pairs
  | nil
  | cons (k v : Datum) (l : Pairs)
end

def Datum.isLick : Datum → Bool
  | .lick .. => true
  | _ => false
def Datum.isNil : Datum → Bool
  | .nil => true
  | _ => false
def Data.allLicks : Data → Bool
  | .nil => true
  | .cons v l => v.isLick && l.allLicks
def Data.isEmpty : Data → Bool
  | .nil => true
  | .cons .. => false

/-- A decimal numeral: no leading zero. -/
def digits (n : Nat) : List Nat := if n < 10 then [n] else digits (n / 10) ++ [n % 10]

/-- The texts, with `, ` between them. -/
def listed : List (List (BitVec 8)) → List (BitVec 8)
  | [] => []
  | [s] => s
  | s :: r => s ++ chars ", " ++ listed r

mutual
/-- `nil`, `true`, `-12`, a string itself, `(1, 2)`, `(k=v, k=v)`; a list of licks is in brackets; a lick is its name,
and its contents and attributes if any, with blanks between. -/
def Datum.text : Datum → List (BitVec 8)
  | .nil => chars "nil"
  | .bool b => chars (if b then "true" else "false")
  | .int i => chars (if i < 0 then "-" else "") ++ (digits i.natAbs).map digitChar
  | .str s => s
  | .list l => if l.allLicks && !l.isEmpty then chars "[" ++ listed l.texts ++ chars "]" else chars "(" ++ listed l.texts ++ chars ")"
  | .table l => chars "(" ++ listed l.texts ++ chars ")"
  | .lick n i a => n.text ++ (if i.isNil then [] else chars " " ++ i.text) ++ (if a.isNil then [] else chars " " ++ a.text)
def Data.texts : Data → List (List (BitVec 8))
  | .nil => []
  | .cons v l => v.text :: l.texts
def Pairs.texts : Pairs → List (List (BitVec 8))
  | .nil => []
  | .cons k v l => (k.text ++ chars "=" ++ v.text) :: l.texts
end

mutual
/-- Integers are integers of the language, strings contain no NUL. -/
def Datum.Ok : Datum → Prop
  | .nil => True
  | .bool _ => True
  | .int i => InRange i
  | .str s => 0#8 ∉ s
  | .list l => l.Ok
  | .table l => l.Ok
  | .lick n i a => n.Ok ∧ i.Ok ∧ a.Ok
def Data.Ok : Data → Prop
  | .nil => True
  | .cons v l => v.Ok ∧ l.Ok
def Pairs.Ok : Pairs → Prop
  | .nil => True
  | .cons k v l => k.Ok ∧ v.Ok ∧ l.Ok
end

mutual
/-- Made of `nil`, booleans, integers other than the smallest, and lists of these. -/
def Datum.Plain : Datum → Prop
  | .nil => True
  | .bool _ => True
  | .int i => InRange i ∧ i ≠ -2^62
  | .list l => l.Plain
  | _ => False
def Data.Plain : Data → Prop
  | .nil => True
  | .cons v l => v.Plain ∧ l.Plain
end

/-- The word of the value of a literal. -/
def Datum.word : Datum → Option PN
  | .nil => some PN_NIL
  | .bool b => some (if b then PN_TRUE else PN_FALSE)
  | .int i => if InRange i then some (pnNum i) else none
  | _ => none

mutual
/-- The expression `t` is a literal, `0 - n` or a list of such, and stands for the value. -/
inductive Means : Tree → Datum → Prop
  | lit {v w} : Datum.word v = some w → Means (operand (node1 .value (.imm w)) []) v
  | neg {i w} : Datum.word (.int i) = some w → InRange (-i) →
      Means (operand (node2 .minus (node1 .value (.imm (pnNum 0))) (node1 .value (.imm w))) []) (.int (-i))
  | empty : Means (operand (node1 .list (.imm PN_NIL)) []) (.list .nil)
  | list {t ts v l} : Means t v → MeansAll ts l → Means (operand (node1 .list (.tup (t :: ts))) []) (.list (.cons v l))
inductive MeansAll : List Tree → Data → Prop
  | nil : MeansAll [] .nil
  | cons {t ts v l} : Means t v → MeansAll ts l → MeansAll (t :: ts) (.cons v l)
end

end Potion.Spec
