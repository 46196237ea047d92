import Verif.Model.Word
/-!
Model of the random number generator (/repo/core/mt19937ar.c). `unsigned long` is 64 bits wide.
-/
namespace Potion.Mt
open Potion

/-- mt19937ar.c:52-53 -/
def N : Nat := 624
def M : Nat := 397
/-- mt19937ar.c:54-56 -/
def MATRIX_A : BitVec 64 := 0x9908b0df#64
def UMASK : BitVec 64 := 0x80000000#64
def LMASK : BitVec 64 := 0x7fffffff#64
/-- mt19937ar.c:57-58 -/
def MIXBITS (u v : BitVec 64) : BitVec 64 := (u &&& UMASK) ||| (v &&& LMASK)
def TWIST (u v : BitVec 64) : BitVec 64 := (MIXBITS u v >>> 1) ^^^ (if v &&& 1#64 ≠ 0#64 then MATRIX_A else 0#64)

/-- mt19937ar.c:60-63: the static variables. `next` is the index of the next output. -/
structure Gen where
  state : Nat → BitVec 64
  left : Int
  initf : Bool
  next : Nat

/-- Array assignment `a[i] = v`. -/
def set (a : Nat → BitVec 64) (i : Nat) (v : BitVec 64) : Nat → BitVec 64 := fun k => if k = i then v else a k

/-- The program's initial values: `state` zeroed, `left = 1`, `initf = 0`. -/
def Gen.start : Gen := { state := fun _ => 0#64, left := 1, initf := false, next := 0 }

/-- mt19937ar.c:69-76: the loop of `init_genrand`, `cnt` iterations from `j`. -/
def initLoop : (cnt : Nat) → (j : Nat) → (Nat → BitVec 64) → (Nat → BitVec 64)
  | 0, _, st => st
  | c+1, j, st =>
    initLoop c (j+1) (set st j ((1812433253#64 * (st (j-1) ^^^ (st (j-1) >>> 30)) + BitVec.ofNat 64 j) &&& 0xffffffff#64))

/-- mt19937ar.c:66-78 `init_genrand`. -/
def initGenrand (g : Gen) (s : BitVec 64) : Gen :=
  { state := initLoop (N - 1) 1 (set g.state 0 (s &&& 0xffffffff#64)), left := 1, initf := true, next := g.next }

/-- mt19937ar.c:119-123: first loop of `next_state`; `none` if an access leaves the array. -/
def loop1 : (cnt : Nat) → (p : Nat) → (Nat → BitVec 64) → Option (Nat → BitVec 64)
  | 0, _, st => some st
  | c+1, p, st =>
    if p + M < N ∧ p + 1 < N then loop1 c (p+1) (set st p (st (p + M) ^^^ TWIST (st p) (st (p+1)))) else none

/-- mt19937ar.c:125-129: second loop; `p[M-N]` is `p - 227`. -/
def loop2 : (cnt : Nat) → (p : Nat) → (Nat → BitVec 64) → Option (Nat → BitVec 64)
  | 0, _, st => some st
  | c+1, p, st =>
    if N - M ≤ p ∧ p + 1 < N then loop2 c (p+1) (set st p (st (p - (N - M)) ^^^ TWIST (st p) (st (p+1)))) else none

/-- mt19937ar.c:108-134 `next_state`. `for (j=N-M+1; --j; p++)` runs N-M times, `for (j=M; --j; p++)` M-1 times. -/
def nextState (g : Gen) : Option Gen :=
  let g := if g.initf then g else initGenrand g 5489#64
  match loop1 (N - M) 0 g.state with
  | none => none
  | some st => match loop2 (M - 1) (N - M) st with
    | none => none
    | some st =>
      let p := N - M + (M - 1)
      some { g with left := N, next := 0, state := set st p (st (p - (N - M)) ^^^ TWIST (st p) (st 0)) }

/-- mt19937ar.c:143-147: tempering. -/
def temper (y : BitVec 64) : BitVec 64 :=
  let y := y ^^^ (y >>> 11)
  let y := y ^^^ ((y <<< 7) &&& 0x9d2c5680#64)
  let y := y ^^^ ((y <<< 15) &&& 0xefc60000#64)
  y ^^^ (y >>> 18)

/-- mt19937ar.c:137-150 `potion_rand_int`; `none` if `next` has left the array. -/
def randInt (g : Gen) : Option (Gen × BitVec 64) :=
  let g := { g with left := g.left - 1 }
  match (if g.left = 0 then nextState g else some g) with
  | none => none
  | some g =>
    if g.next < N then some ({ g with next := g.next + 1 }, temper (g.state g.next)) else none

/-- `n` calls of `potion_rand_int`: the last result. -/
def randN : (n : Nat) → Gen → Option (Gen × List (BitVec 64))
  | 0, g => some (g, [])
  | n+1, g => match randInt g with
    | none => none
    | some (g, y) => match randN n g with
      | none => none
      | some (g, ys) => some (g, y :: ys)

/-- mt19937ar.c:162-165 `potion_srand`: `init_genrand(PN_INT(seed))`. -/
def srand (g : Gen) (seed : PN) : Gen := initGenrand g (BitVec.ofInt 64 (pnInt seed))

/-- mt19937ar.c:172-174 `potion_rand`: `PN_NUM(potion_rand_int())`. -/
def rand (g : Gen) : Option (Gen × PN) :=
  match randInt g with
  | none => none
  | some (g, y) => some (g, pnNum y.toInt)

/-- mt19937ar.c:153-156 `potion_rand_double`: `(a*2^26+b) * 2^-53` as a fraction (numerator, denominator); the products
and the sum are exact in a double because a < 2^27 and b < 2^26. -/
def randDouble (g : Gen) : Option (Gen × (Nat × Nat)) :=
  match randInt g with
  | none => none
  | some (g, y) => match randInt g with
    | none => none
    | some (g, z) => some (g, ((y >>> 5).toNat * 67108864 + (z >>> 6).toNat, 9007199254740992))

/-- mt19937ar.c:181-183 `potion_num_rand`: `PN_NUM(potion_rand_double())` – the macro casts the double to
`unsigned long`, which truncates. -/
def numRand (g : Gen) : Option (Gen × PN) :=
  match randDouble g with
  | none => none
  | some (g, (num, den)) => some (g, pnNum ((num / den : Nat) : Int))

end Potion.Mt

namespace Potion.Mt
open Potion

/-- What a program can do to the generator: `srand seed` (objmodel.c:750), `rand` (objmodel.c:751), `n rand`
(number.c:463), or allocate an object, whose `uniq` field draws one number (potion.h:718, internal.c:123). -/
inductive Op where
  | srand (seed : PN)
  | rand
  | numRand
  | alloc

/-- Effect of one operation and the value the program gets back, if any. -/
def step (g : Gen) : Op → Option (Gen × Option PN)
  | .srand s => some (srand g s, none)
  | .rand => (rand g).map (fun (g, v) => (g, some v))
  | .numRand => (numRand g).map (fun (g, v) => (g, some v))
  | .alloc => (randInt g).map (fun (g, _) => (g, none))

/-- A history of operations; the values returned, oldest first. -/
def run (g : Gen) : List Op → Option (Gen × List (Option PN))
  | [] => some (g, [])
  | o :: os => match step g o with
    | none => none
    | some (g, v) => match run g os with
      | none => none
      | some (g, vs) => some (g, v :: vs)

end Potion.Mt
