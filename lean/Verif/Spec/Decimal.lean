/-! Specification of decimal and hexadecimal numerals. -/
namespace Potion.Spec

/-- The ASCII character of a decimal digit. -/
def digitChar (d : Nat) : BitVec 8 := BitVec.ofNat 8 (48 + d)

/-- The ASCII character of a hexadecimal digit (lower or upper case). -/
def HexChar (d : Nat) (c : BitVec 8) : Prop :=
  (d < 10 ∧ c.toNat = 48 + d) ∨ (10 ≤ d ∧ d < 16 ∧ (c.toNat = 55 + d ∨ c.toNat = 87 + d))

/-- The number written by the digits `ds` (most significant first) in base `B`: the last digit counts 1, the one before
it `B`, and so on. -/
def numeral (B : Nat) : List Nat → Nat
  | [] => 0
  | d :: ds => d * B ^ ds.length + numeral B ds

end Potion.Spec
