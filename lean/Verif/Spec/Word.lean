/-!
Specification of Potion integers, independent of the model: a 64-bit word denotes the integer `i`
when its signed value is `2*i+1` (documented in potion.h:193-197: "31bit/63bit shifted off the last 1 bit").
-/
namespace Potion.Spec

/-- The word `w` is the Potion integer `i`. -/
def Denotes (w : BitVec 64) (i : Int) : Prop := w.toInt = 2 * i + 1

instance (w : BitVec 64) (i : Int) : Decidable (Denotes w i) := inferInstanceAs (Decidable (_ = _))

/-- The mathematical range of Potion integers. -/
def InRange (i : Int) : Prop := -(2^62) ≤ i ∧ i < 2^62

instance (i : Int) : Decidable (InRange i) := inferInstanceAs (Decidable (_ ∧ _))

/-- `r` is `i` wrapped modulo 2^63 into the Potion integer range. -/
def WrapsTo (i r : Int) : Prop := InRange r ∧ (2^63 : Int) ∣ (r - i)

/-- Operators as written in a script: `+ - * / % << >>`. -/
inductive Op | plus | minus | times | over | mod | shl | shr

/-- Exact mathematical value of an operator (`/` and `%` truncate toward zero as in C). -/
inductive Exact : Op → Int → Int → Int → Prop
  | add (a b) : Exact .plus a b (a + b)
  | sub (a b) : Exact .minus a b (a - b)
  | mul (a b) : Exact .times a b (a * b)
  | div (a b q r) (hb : b ≠ 0) (h : a = b * q + r) (hr : r.natAbs < b.natAbs) (hs : 0 ≤ r * a) : Exact .over a b q
  | rem (a b q r) (hb : b ≠ 0) (h : a = b * q + r) (hr : r.natAbs < b.natAbs) (hs : 0 ≤ r * a) : Exact .mod a b r
  | shl (a : Int) (n : Nat) : Exact .shl a n (a * 2 ^ n)
  | shr (a : Int) (n : Nat) (q r : Int) (h : a = 2 ^ n * q + r) (h0 : 0 ≤ r) (h1 : r < 2 ^ n) : Exact .shr a n q

end Potion.Spec
