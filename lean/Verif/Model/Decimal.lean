import Verif.Model.Str
/-!
Model of decimal text: number parsing (/repo/core/internal.h 54-70, /repo/core/string.c 109-129,
/repo/core/syntax.y 194-203, 251-256) and integer printing (/repo/core/number.c `potion_num_string`).
-/
namespace Potion.Dec
open Potion

/-- internal.h:60-65: the value of one digit character (decimal or hexadecimal), or `none` (`else break`). Characters
from 0x80 up are negative `char`s and fail every test; the unsigned comparison agrees. -/
def digitVal (c : Byte) : Option Nat :=
  let n := c.toNat
  if n ≥ 48 ∧ n ≤ 57 then some (n - 48)
  else if n ≥ 65 ∧ n ≤ 70 then some (n - 65 + 10)
  else if n ≥ 97 ∧ n ≤ 102 then some (n - 97 + 10)
  else none

/-- internal.h:59-67: the loop of PN_ATOI over the characters that remain. `Ai` is a C `long`; it is modelled as an
unbounded integer here and wrapped to 64 bits at the end (`wrap`), the x86-64 behaviour of the signed overflow. -/
def atoiLoop (B : Nat) : List Byte → (Ai : Int) → Int
  | [], Ai => Ai
  | c :: cs, Ai => match digitVal c with
    | some d => atoiLoop B cs (Ai * B + d)
    | none => Ai

/-- Two's complement `long`. -/
def wrap (i : Int) : Int := Int.bmod i (2^64)

/-- internal.h:54-70 `PN_ATOI(X, N, B)` on the `N` characters `s`. -/
def atoi (s : List Byte) (B : Nat) : Int :=
  match s with
  | [] => 0
  | c :: cs => if c = 0x2D#8 then wrap (- wrap (atoiLoop B cs 0)) else wrap (atoiLoop B (c :: cs) 0)

/-- A number computed by the parser: an integer word, or a double made by `strtod` of the whole text (not modelled). -/
inductive Num
  | int (w : PN)
  | dbl (text : List Byte)
  deriving DecidableEq, Repr

/-- string.c:119-121 `str[i] < '0' || str[i] > '9'` negated. -/
def isDigit (c : Byte) : Bool := decide (48 ≤ c.toNat) && decide (c.toNat ≤ 57)

/-- string.c:109-129 `potion_str_number` (`len` is an `int`: strings below 2^31 bytes). -/
def strNumber (s : List Byte) : Num :=
  match s with
  | [] => .int (pnNum 0)
  | c :: cs =>
    let sign : Int := if c = 0x2D#8 then -1 else 1
    let str := if c = 0x2D#8 ∨ c = 0x2B#8 then cs else c :: cs
    let i := (str.takeWhile isDigit).length
    if i < 10 ∧ i = str.length then .int (pnNum (wrap (sign * atoi str 10)))
    else .dbl s

/-- syntax.y:197 a hexadecimal literal `0x` followed by the digits `s`. -/
def hexLiteral (s : List Byte) : PN := pnNum (atoi s 16)
/-- syntax.y:198-199 a decimal integer literal with text `s`. -/
def decLiteral (s : List Byte) : PN := pnNum (atoi s 10)

/-- libc `sprintf("%ld")` of a natural number: decimal digits, most significant first. -/
def natText : (fuel : Nat) → Nat → List Byte
  | 0, _ => []
  | f+1, n => if n < 10 then [BitVec.ofNat 8 (48 + n)] else natText f (n / 10) ++ [BitVec.ofNat 8 (48 + n % 10)]

/-- number.c `potion_num_string` on an integer: `sprintf(ints, "%ld", PN_INT(self))` (libc is trusted to print the
decimal form; 20 digits suffice for a `long`). -/
def intText (i : Int) : List Byte :=
  if i < 0 then 0x2D#8 :: natText 20 i.natAbs else natText 20 i.natAbs
def numString (w : PN) : List Byte := intText (pnInt w)

end Potion.Dec
