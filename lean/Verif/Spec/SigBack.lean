import Verif.Spec.SigText
import Verif.Spec.Show
/-!
Specification for C81: the text a signature is shown as.
-/
namespace Potion.Sig
open Potion Potion.Spec

/-- The text of a default value. -/
def valueText : Item → List (BitVec 8)
  | .num i => (Datum.int i).text
  | .other w => chars (if w = PN_NIL then "nil" else if w = PN_TRUE then "true" else "false")
  | .str s => s

/-- The text of a declaration: `x`, `x=N`, `x:=5`, `|`, `.`. (For those with a modifier, the text of their name.) -/
def Decl.text : Decl → List (BitVec 8)
  | .param n .plain => n
  | .param n (.typed c) => n ++ (chars "=" ++ [BitVec.ofInt 8 c])
  | .param n (.deflt v) => n ++ (chars ":=" ++ valueText v)
  | .param n (.modified ..) => n
  | .bar => chars "|"
  | .dot => chars "."

def Decl.isParam : Decl → Bool
  | .param .. => true
  | _ => false
def startsParam : List Decl → Bool
  | d :: _ => d.isParam
  | [] => false

/-- The text of a signature: that of its declarations, with commas between parameters. -/
def sigText : List Decl → List (BitVec 8)
  | [] => []
  | d :: ds => d.text ++ (if d.isParam && startsParam ds then chars "," else []) ++ sigText ds

/-- The name of a function after `function`. -/
def nameText : Option (List (BitVec 8)) → List (BitVec 8)
  | some n => chars " " ++ n
  | none => []

/-- A default that is shown as itself: nil, true, false, or an integer whose low 32 bits are not `.`, `:` or `|`. -/
def PlainValue : Item → Prop
  | .num i => InRange i ∧ i % 2 ^ 32 ≠ 46 ∧ i % 2 ^ 32 ≠ 58 ∧ i % 2 ^ 32 ≠ 124
  | .other w => w = PN_NIL ∨ w = PN_TRUE ∨ w = PN_FALSE
  | .str _ => False
/-- Declarations without modifiers, types of one letter. -/
def Decl.Plain : Decl → Prop
  | .param n .plain => ParamName n
  | .param n (.typed c) => ParamName n ∧ ∃ b ∈ typeLetters, c = (b.toNat : Int)
  | .param n (.deflt v) => ParamName n ∧ PlainValue v
  | .param _ (.modified ..) => False
  | _ => True

/-- Parameters, and at least one. -/
def Params (ds : List Decl) : Prop := ds ≠ [] ∧ ∀ d ∈ ds, d.isParam = true
/-- Parameters, then a bar and more parameters, either part may be left out. -/
inductive Group : List Decl → Prop
  | set {ds} : Params ds → Group ds
  | both {ds ds'} : Params ds → Params ds' → Group (ds ++ .bar :: ds')
  | optional {ds} : Params ds → Group (.bar :: ds)
/-- Groups with dots between them. -/
inductive Groups : List Decl → Prop
  | group {ds} : Group ds → Groups ds
  | dot {ds ds'} : Group ds → Groups ds' → Groups (ds ++ .dot :: ds')

end Potion.Sig
