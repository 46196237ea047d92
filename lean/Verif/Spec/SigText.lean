import Verif.Spec.Sig
import Verif.Spec.Syntax
import Verif.Model.PotionSig
/-!
The texts of signatures, `x,y  x=N  x:=0  a|b=o  a. b  a...`, and the declarations they stand for.
-/
namespace Potion.Sig
open Potion Potion.Spec
open Potion.Greg (itemOf)
open Potion.Peg (Tree)

/-- A letter, `_`, `$` or `@`, and any number of these and digits. -/
def ParamName (x : List (BitVec 8)) : Prop := ∃ c r, x = c :: r ∧ isLetter c = true ∧ ∀ d ∈ r, isLetter d = true ∨ isDigitChar d = true

/-- The letters of types (potion_type_char) and the modifiers. -/
def typeLetters : List (BitVec 8) := chars "NBIDS&oTaubnsFPlkftxrcdm"
def modifiers : List (BitVec 8) := chars "-\\*"

/-- The text of one parameter, or of `...`. -/
inductive IsParam : List (BitVec 8) → Decl → Prop
  | plain {x} : ParamName x → IsParam x (.param x .plain)
  | typed {x w g c} : ParamName x → Blank w → Gap false g → c ∈ typeLetters →
      IsParam (x ++ (w ++ (chars "=" ++ (g ++ [c])))) (.param x (.typed c.toNat))
  /-- The default is an integer (also a negative one), `nil`, `true` or `false`. -/
  | deflt {x w g s v} : ParamName x → Blank w → Gap false g → Reads .arg s (node1 .value (.imm v)) →
      IsParam (x ++ (w ++ (chars ":=" ++ (g ++ s)))) (.param x (.deflt (itemOf (.imm v))))
  | modified {m x} : m ∈ modifiers → ParamName x → IsParam (m :: x) (.param x (.modified none m.toNat))
  | modifiedTyped {m x w g c} : m ∈ modifiers → ParamName x → Blank w → Gap false g → c ∈ typeLetters →
      IsParam (m :: (x ++ (w ++ (chars "=" ++ (g ++ [c]))))) (.param x (.modified (some c.toNat) m.toNat))
  | rest : IsParam (chars "...") .dot

/-- Parameters separated by commas. -/
inductive IsSet : List (BitVec 8) → List Decl → Prop
  | one {s d} : IsParam s d → IsSet s [d]
  | more {s d w w' s' ds} : IsParam s d → Blank w → Blank w' → IsSet s' ds → IsSet (s ++ (w ++ (chars "," ++ (w' ++ s')))) (d :: ds)

/-- Mandatory and, after a bar, optional parameters. -/
inductive IsList : List (BitVec 8) → List Decl → Prop
  | set {s ds} : IsSet s ds → IsList s ds
  | both {s ds w w' s' ds'} : IsSet s ds → Blank w → Blank w' → IsSet s' ds' → IsList (s ++ (w ++ (chars "|" ++ (w' ++ s')))) (ds ++ .bar :: ds')
  | optional {w s ds} : Blank w → IsSet s ds → IsList (chars "|" ++ (w ++ s)) (.bar :: ds)

/-- These, separated by dots. -/
inductive IsArgs : List (BitVec 8) → List Decl → Prop
  | list {s ds} : IsList s ds → IsArgs s ds
  | dot {s ds w w' s' ds'} : IsList s ds → Blank w → Blank w' → IsArgs s' ds' → IsArgs (s ++ (w ++ (chars "." ++ (w' ++ s')))) (ds ++ .dot :: ds')

/-- A signature; `...` may follow without a comma. -/
inductive IsSig : List (BitVec 8) → List Decl → Prop
  | args {s ds w} : IsArgs s ds → Blank w → IsSig (s ++ w) ds
  | rest {s ds w w'} : IsArgs s ds → Blank w → Blank w' → IsSig (s ++ (w ++ (chars "..." ++ w'))) (ds ++ [.dot])

end Potion.Sig
