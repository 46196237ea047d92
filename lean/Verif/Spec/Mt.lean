/-! Specification: MT19937 (Matsumoto and Nishimura 1998; initialisation of 2002), as recurrences over 32-bit words. -/
namespace Potion.Spec

/-- Combine the top bit of `u` with the low 31 bits of `v` and multiply by the twist matrix. -/
def twist (u v : BitVec 32) : BitVec 32 :=
  (((u &&& 0x80000000#32) ||| (v &&& 0x7fffffff#32)) >>> 1) ^^^ (if v.getLsbD 0 then 0x9908b0df#32 else 0#32)

/-- The sequence x₀, x₁, ... for a seed. -/
def mtSeq (seed : BitVec 32) : Nat → BitVec 32
  | 0 => seed
  | n+1 =>
    if h : n + 1 < 624 then
      1812433253#32 * (mtSeq seed n ^^^ (mtSeq seed n >>> 30)) + BitVec.ofNat 32 (n+1)
    else
      mtSeq seed (n + 1 - 624 + 397) ^^^ twist (mtSeq seed (n + 1 - 624)) (mtSeq seed (n + 1 - 624 + 1))
  termination_by n => n

/-- Tempering. -/
def mtTemper (y : BitVec 32) : BitVec 32 :=
  let y := y ^^^ (y >>> 11)
  let y := y ^^^ ((y <<< 7) &&& 0x9d2c5680#32)
  let y := y ^^^ ((y <<< 15) &&& 0xefc60000#32)
  y ^^^ (y >>> 18)

/-- The n-th output (n = 0, 1, ...). -/
def mtOut (seed : BitVec 32) (n : Nat) : BitVec 32 := mtTemper (mtSeq seed (624 + n))

end Potion.Spec

namespace Potion.Spec

/-- What a program does with random numbers: seed, ask for an integer, ask for a fraction, or create an object. -/
inductive RandUse where
  | seed (i : Int)
  | int
  | fraction
  | object

/-- The specified answers to a sequence of uses, given the current seed and the number of outputs consumed so far:
an integer consumes one output, a fraction two (27 and 26 bits of them), creating an object one. The fraction is
(numerator, 2^53). -/
def randAnswers (seed : BitVec 32) (k : Nat) : List RandUse → List (Option (Nat × Nat))
  | [] => []
  | .seed i :: us => none :: randAnswers (BitVec.ofInt 32 i) 0 us
  | .int :: us => some ((mtOut seed k).toNat, 1) :: randAnswers seed (k+1) us
  | .fraction :: us =>
    some ((mtOut seed k).toNat / 32 * 67108864 + (mtOut seed (k+1)).toNat / 64, 9007199254740992) :: randAnswers seed (k+2) us
  | .object :: us => none :: randAnswers seed (k+1) us

end Potion.Spec
