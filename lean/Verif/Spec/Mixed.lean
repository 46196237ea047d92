import Verif.Model.Mixed
import Verif.Spec.Double
/-! Numbers of both kinds as rational numbers, and what is assumed of the floating point unit (IEEE 754: correct rounding), for C75. -/
namespace Potion.Spec
open Potion Potion.Dbl Potion.Mixed

/-- The floating point unit rounds to a nearest double; nothing is assumed about results beyond 2^1023 and division by zero. -/
structure Ieee (F : Fpu) : Prop where
  ofLong : ∀ i : Int, FitsLong i → Nearest (i : ℚ) (F.ofLong i)
  add : ∀ a b, Finite a → Finite b → |value a + value b| < 2 ^ 1023 → Nearest (value a + value b) (F.add a b)
  sub : ∀ a b, Finite a → Finite b → |value a - value b| < 2 ^ 1023 → Nearest (value a - value b) (F.sub a b)
  mul : ∀ a b, Finite a → Finite b → |value a * value b| < 2 ^ 1023 → Nearest (value a * value b) (F.mul a b)
  div : ∀ a b, Finite a → Finite b → value b ≠ 0 → |value a / value b| < 2 ^ 1023 → Nearest (value a / value b) (F.div a b)

/-- Numbers: integers, and finite doubles. -/
def Number : Val → Prop
  | .int w => isInt w = true
  | .dbl _ d => Finite d
  | .other => False

/-- The number meant. -/
def exact : Val → ℚ
  | .int w => pnInt w
  | .dbl _ d => value d
  | .other => 0

/-- An integer that has a double of its own. -/
def Fine : Val → Prop
  | .int w => |pnInt w| ≤ 2 ^ 53
  | _ => True

def BothInt : Val → Val → Prop
  | .int _, .int _ => True
  | _, _ => False

/-- The four operations. -/
def apply : AOp → ℚ → ℚ → Option ℚ
  | .add, a, b => some (a + b)
  | .sub, a, b => some (a - b)
  | .mul, a, b => some (a * b)
  | .div, a, b => if b = 0 then none else some (a / b)
  | _, _, _ => none

/-- The order relations. -/
def holds : COp → ℚ → ℚ → Bool
  | .lt, a, b => decide (a < b)
  | .le, a, b => decide (a ≤ b)
  | .gt, a, b => decide (a > b)
  | .ge, a, b => decide (a ≥ b)

end Potion.Spec
