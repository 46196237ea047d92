import Verif.Model.Decimal
/-!
The text of a floating point number (/repo/core/number.c 241-248, 252-264). Doubles are IEEE 754 binary64 numbers: sign,
integer significand and exponent, infinities and NaNs. `sprintf` is modelled as ISO C 7.21.6.1 and Annex F describe it (the nearest decimal of the
given precision, ties to even, as glibc does).
-/
namespace Potion.Dbl
open Potion

/-- A double; `fin neg m e` is `± m * 2^e`. -/
inductive Double
  | fin (neg : Bool) (m : Nat) (e : Int)
  | inf (neg : Bool)
  | nan (neg : Bool)
  deriving DecidableEq

/-- `n / d` rounded to the nearest integer, ties to even. -/
def roundDiv (n d : Nat) : Nat := if d < 2 * (n % d) ∨ (2 * (n % d) = d ∧ n / d % 2 = 1) then n / d + 1 else n / d

/-- `m * 2^e * 10^16`, rounded. -/
def scaled (m : Nat) (e : Int) : Nat := if 0 ≤ e then m * 2 ^ e.toNat * 10 ^ 16 else roundDiv (m * 10 ^ 16) (2 ^ (-e).toNat)

/-- `k` decimal digits. -/
def pad : (k : Nat) → Nat → List Byte
  | 0, _ => []
  | k+1, n => pad k (n / 10) ++ [BitVec.ofNat 8 (48 + n % 10)]

def sign (neg : Bool) : List Byte := if neg then [0x2D#8] else []

/-- `sprintf("%.16f")`. The largest double has 309 digits before the point. -/
def sprintf16 : Double → List Byte
  | .fin neg m e => sign neg ++ Dec.natText 400 (scaled m e / 10 ^ 16) ++ 0x2E#8 :: pad 16 (scaled m e % 10 ^ 16)
  | .inf neg => sign neg ++ [0x69#8, 0x6E#8, 0x66#8]
  | .nan neg => sign neg ++ [0x6E#8, 0x61#8, 0x6E#8]

/-- number.c:244, 258: the loop that drops the zeros at the end. -/
def strip (t : List Byte) : List Byte := (t.reverse.dropWhile (· = 0x30#8)).reverse

/-- number.c:241-248 `potion_dbl_string`; 252-264 `potion_num_string` of a double. The buffer has 40 bytes; `none`: it is overrun. -/
def dblString (d : Double) : Option (List Byte) :=
  let t := sprintf16 d
  if 40 < t.length + 1 then none
  else some (if (strip t).getLast? = some 0x2E#8 then t.take ((strip t).length + 1) else strip t)

end Potion.Dbl
