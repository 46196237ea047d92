import Verif.Spec.Sig
import Verif.Model.Word
/-!
What a function gets for the parameters its caller leaves out.
-/
namespace Potion.Sig
open Potion

/-- The zero value of a type: 0 for numbers and integers, the empty string for strings, nil for the others. -/
def zeroOf (t : Int) : Item :=
  if t = ('N'.toNat : Int) ∨ t = ('I'.toNat : Int) then .num 0 else if t = ('S'.toNat : Int) then .str [] else .other PN_NIL

/-- The value of a parameter that is left out: its default, or the zero value of its type. Parameters with neither have none. -/
def Kind.missing : Kind → Option Item
  | .plain => none
  | .typed t => some (zeroOf t)
  | .deflt v => some v
  | .modified (some t) _ => some (zeroOf t)
  | .modified none _ => none

/-- The declared types are ASCII characters. -/
def Kind.Ascii : Kind → Prop
  | .typed t => 0 ≤ t ∧ t < 128
  | .modified (some t) _ => 0 ≤ t ∧ t < 128
  | _ => True

/-- A signature: types are letters, and no default is the number 58 (`C29_refuted`). -/
structure Proper (ds : List Decl) : Prop where
  ok : ∀ d ∈ ds, d.Ok
  not58 : ∀ d ∈ ds, d.Not58
  ascii : ∀ p ∈ params ds, p.2.Ascii
  some : ds ≠ []

/-- A number of arguments the signature allows: none at all, or all the mandatory ones and not more than there are parameters. -/
def Allowed (ds : List Decl) (n : Nat) : Prop := n = 0 ∨ ((mandatory ds).length ≤ n ∧ n ≤ (params ds).length)

/-- `l` are the values for the parameters after the first `n`. -/
def Rest (ds : List Decl) (n : Nat) (l : List Item) : Prop := ((params ds).drop n).map (fun p => p.2.missing) = l.map some

/-- For each parameter: does a `|` or a `.` follow it? -/
def followed : List Decl → List Bool
  | [] => []
  | .param _ _ :: ds => (match ds with
      | .bar :: _ => true
      | .dot :: _ => true
      | _ => false) :: followed ds
  | .bar :: ds => followed ds
  | .dot :: ds => followed ds

end Potion.Sig
