import Verif.Model.Khash
/-! Specification of a table: the answer to a lookup is determined by the last operation that mentions the key. -/
namespace Potion.Spec
variable {K V : Type}

/-- What operation `op` says about key `k`: nothing, "now `v`", or "now absent". -/
def effect [DecidableEq K] (k : K) : TOp K V → Option (Option V)
  | .put k' v => if k' = k then some (some v) else none
  | .remove k' => if k' = k then some none else none

/-- The value of `k` after a history: decided by the most recent operation that mentions `k`; absent if none does. -/
def latest [DecidableEq K] (ops : List (TOp K V)) (k : K) : Option V :=
  (ops.reverse.findSome? (effect k)).getD none

end Potion.Spec
