import Verif.Spec.Compiler
/-!
What is claimed of programs run in the default mode, as machine code (C59), and of which programs.
-/
namespace Potion.Compile
open Potion Potion.Spec

/-- What is claimed of machine code: order comparisons of integers of the same sign, and sums, differences and products that
are integers; quotients and remainders of integers of 31 bits that are not negative; no shifts, and nothing of variables not yet
assigned. -/
def native : Claims where
  rel := sameSign
  arith := fun op i j => match op with
    | .plus | .minus | .times => true
    | .over => decide (-(2^30) ≤ i ∧ i < 2^30 ∧ -(2^30) ≤ j ∧ j < 2^30 ∧ 0 ≤ Int.tdiv i j)
    | .mod => decide (-(2^30) ≤ i ∧ i < 2^30 ∧ -(2^30) ≤ j ∧ j < 2^30 ∧ 0 ≤ Int.tmod i j)
    | .shl | .shr => false
  unset := false

mutual
/-- Programs for which machine code is right: no functions or calls, no shifts; order comparisons not in registers 16 to 31, and
`return` only as a statement (register 0). `r` is the register that is to hold the result: the second operand of an
operator and the condition of an `if` or `while` have the next one. -/
def nativeOk (r : Nat) : Prog → Bool
  | .int _ | .bool _ | .nil | .var _ | .incr .. | .nop | .brk | .cont => true
  | .assign _ e => nativeOk r e
  | .arith op a b => (match op with | .shl | .shr => false | _ => true) && nativeOk r a && nativeOk (r+1) b
  | .rel _ a b => (decide (r ≤ 15) || decide (31 < r)) && nativeOk r a && nativeOk (r+1) b
  | .eq _ a b => nativeOk r a && nativeOk (r+1) b
  | .not a | .bitnot a | .group a | .loop a => nativeOk r a
  | .and a b | .or a b | .seq a b => nativeOk r a && nativeOk r b
  | .ifs c a t => nativeOk (r+1) c && nativeOk r a && nativeTail r t
  | .while c a => nativeOk (r+1) c && nativeOk r a
  | .ret a => decide (r = 0) && nativeOk r a
  | .retNil => decide (r = 0)
  | .fn .. | .call .. => false
def nativeTail (r : Nat) : Else → Bool
  | .none => true
  | .elsif c a t => nativeOk (r+1) c && nativeOk r a && nativeTail r t
  | .els a => nativeOk r a
end

end Potion.Compile
