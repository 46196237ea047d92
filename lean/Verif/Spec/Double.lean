import Verif.Model.Double
import Verif.Spec.Decimal
import Verif.Spec.Dump
import Mathlib.Data.Rat.Floor
import Mathlib.Tactic.Linarith
/-!
Doubles as rational numbers, decimal texts, and what `strtod` of the C library does (ISO C 7.22.1.3 and Annex F.5: the double nearest to
the number written, which is as long as possible).
-/
namespace Potion.Spec
open Potion Potion.Dbl

/-- The value of a finite double. -/
def value : Double → ℚ
  | .fin neg m e => (if neg then -1 else 1) * ((m : ℚ) * 2 ^ e)
  | _ => 0

/-- Finite binary64 numbers: 53 bits, and the exponent in its range; the significand is normalised unless the exponent is the least. -/
def Finite : Double → Prop
  | .fin _ m e => m < 2 ^ 53 ∧ -1074 ≤ e ∧ e ≤ 971 ∧ (2 ^ 52 ≤ m ∨ e = -1074)
  | _ => False

instance (d : Double) : Decidable (Finite d) := by cases d <;> (unfold Finite; infer_instance)

/-- A sign, digits, a point and digits; and the number they write. -/
def IsDecimal (t : List Byte) (q : ℚ) : Prop :=
  ∃ (neg : Bool) (i f : List Nat), i ≠ [] ∧ f ≠ [] ∧ (∀ d ∈ i ++ f, d < 10) ∧
    t = sign neg ++ i.map digitChar ++ 0x2E#8 :: f.map digitChar ∧
    q = (if neg then -1 else 1) * ((numeral 10 i : ℚ) + (numeral 10 f : ℚ) / 10 ^ f.length)

/-- No double is nearer to `q`. -/
def Nearest (q : ℚ) (d : Double) : Prop := Finite d ∧ ∀ y, Finite y → |q - value d| ≤ |q - value y|

/-- `read` is `strtod` on decimal texts below `10^300`, whatever comes after them that does not belong to the number. -/
def Strtod (read : List Byte → Double) : Prop :=
  ∀ t q rest, IsDecimal t q → |q| < 10 ^ 300 → Dump.NoNumber rest → Nearest q (read (t ++ rest))

end Potion.Spec
