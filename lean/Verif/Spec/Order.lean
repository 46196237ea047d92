/-! Specification of list comparison. -/
namespace Potion.Spec

/-- Lexicographic comparison: -1, 0 or 1. -/
def lexCmp : List Int → List Int → Int
  | [], [] => 0
  | [], _ :: _ => -1
  | _ :: _, [] => 1
  | a :: l, b :: m => if a < b then -1 else if b < a then 1 else lexCmp l m

/-- Three-way comparison of integers. -/
def cmpInt (a b : Int) : Int := if a < b then -1 else if a = b then 0 else 1

end Potion.Spec
