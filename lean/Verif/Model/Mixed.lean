import Verif.Model.Double
import Verif.Model.Number
/-!
Arithmetic and comparison of numbers of both kinds: the interpreter's operators (/repo/core/vm.c 369-440, 749-790) and
the methods of class Number they fall back to (/repo/core/number.c 33-135, 202-216, 359-407). Integers and doubles both have type Number
(potion.h `PN_TYPE`, `potion_double` number.c:17-21), so `potion_obj_add` and the others reach the `potion_num_*` functions.

The processor's floating point unit is a parameter (`Fpu`); what is assumed of it is in Spec/Mixed.lean.
-/
namespace Potion.Mixed
open Potion Potion.Dbl

/-- A register: an integer (its tagged word), a double (at an address), or something else. -/
inductive Val
  | int (w : PN)
  | dbl (addr : PN) (d : Double)
  | other
  deriving DecidableEq

/-- What an operator leaves: a new integer, a new double, a boolean; a type error returned from the running function; or an operation whose
behaviour C leaves undefined. -/
inductive Out
  | int (w : PN)
  | dbl (d : Double)
  | bool (b : Bool)
  | error
  | undef
  deriving DecidableEq

/-- C's arithmetic on `double`s, and the conversion from `long`. -/
structure Fpu where
  ofLong : Int → Double
  add : Double → Double → Double
  sub : Double → Double → Double
  mul : Double → Double → Double
  div : Double → Double → Double
  pow : Double → Double → Double

/-- `± m` times a power of two that makes it an integer: `d * 2^(-k)`, for `k ≤ e`. -/
def units (neg : Bool) (m : Nat) (e k : Int) : Int := (if neg then -1 else 1) * ((m * 2 ^ (e - k).toNat : Nat) : Int)

/-- C's `<` on doubles (a NaN compares false). -/
def dlt : Double → Double → Bool
  | .fin n m e, .fin n' m' e' => decide (units n m e (min e e') < units n' m' e' (min e e'))
  | .fin .., .inf neg => !neg
  | .inf neg, .fin .. => neg
  | .inf n, .inf n' => n && !n'
  | _, _ => false

/-- C's `==` on doubles. -/
def deq : Double → Double → Bool
  | .fin n m e, .fin n' m' e' => decide (units n m e (min e e') = units n' m' e' (min e e'))
  | .inf n, .inf n' => n == n'
  | _, _ => false

def dcmp (c : COp) (x y : Double) : Bool :=
  match c with
  | .lt => dlt x y
  | .le => dlt x y || deq x y
  | .gt => dlt y x
  | .ge => dlt y x || deq x y

/-- The integer part of `m * 2^e`. -/
def whole (m : Nat) (e : Int) : Nat := if 0 ≤ e then m * 2 ^ e.toNat else m / 2 ^ (-e).toNat

/-- `(int)d`: truncated; undefined if that is not an `int` (ISO C 6.3.1.4). -/
def toInt : Double → Option Int
  | .fin neg m e =>
    let z : Int := (if neg then -1 else 1) * (whole m e : Int)
    if -(2 ^ 31) ≤ z ∧ z < 2 ^ 31 then some z else none
  | _ => none

/-- potion.h:215 `PN_DBL`. -/
def pnDbl (F : Fpu) : Val → Double
  | .int w => F.ofLong (pnInt w)
  | .dbl _ d => d
  | .other => .nan false

def isNum : Val → Bool
  | .other => false
  | _ => true

def zero : Double := .fin false 0 (-1074)

/-- number.c:45-50 `PN_NUM_MATH`, 98-104 `potion_num_rem`, 119-135 `potion_num_bitl`, `potion_num_bitr`; the operands are not both integers. -/
def numMath (F : Fpu) (op : AOp) (x y : Double) : Out :=
  match op with
  | .add => .dbl (F.add x y)
  | .sub => .dbl (F.sub x y)
  | .mul => .dbl (F.mul x y)
  | .div => .dbl (F.div x y)
  | .rem =>
    match toInt (F.div x y) with
    | none => .undef
    | some z => .dbl (F.sub x (F.mul y (F.ofLong z)))
  | .shl => .dbl zero
  | .shr => .dbl zero

def fpuOp (F : Fpu) : AOp → Double → Double → Double
  | .add => F.add
  | .sub => F.sub
  | _ => F.mul

def ofNum : Num Double → Out
  | .imm w => .int w
  | .dbl d => .dbl d

/-- vm.c:749-753, 789-790: `+ - *` are `PN_VM_MATH3` (384-401), `/ % << >>` are `PN_VM_MATH2` (369-376). -/
def vmArith (F : Fpu) (op : AOp) (x y : Val) : Out :=
  match x, y with
  | .int a, .int b =>
    match op with
    | .add | .sub | .mul => ofNum (vmMath3 op F.ofLong (fpuOp F op) a b)
    | _ => match vmMath2 op a b with
      | none => .undef
      | some w => .int w
  | x, y => if !isNum x || !isNum y then .error else numMath F op (pnDbl F x) (pnDbl F y)

/-- vm.c:409-416 `PN_VM_NUMCMP`. -/
def vmCompare (F : Fpu) (c : COp) (x y : Val) : Out :=
  match x, y with
  | .int a, .int b => .bool (pnTest (vmNumCmp c a b))
  | x, y => if !isNum x || !isNum y then .error else .bool (dcmp c (pnDbl F x) (pnDbl F y))

/-- vm.c:422-431 `potion_vm_eq`, on numbers: a double is at an address (an even word), so it is not the same word as an integer. -/
def vmEq (x y : Val) : Bool :=
  match x, y with
  | .dbl _ d, .dbl _ d' => deq d d'
  | .int a, .int b => a == b
  | _, _ => false

/-- vm.c:433-442 `potion_vm_neq`, on numbers. -/
def vmNeq (x y : Val) : Bool :=
  match x, y with
  | .dbl _ d, .dbl _ d' => !deq d d'
  | .int a, .int b => a != b
  | _, _ => true

/-- The word in a register. -/
def word : Val → PN
  | .int w => w
  | .dbl addr _ => addr
  | .other => 0

/-- vm.c:754-755 `OP_POW`: `PN_INT` of whatever the words are. -/
def vmPow (F : Fpu) (x y : Val) : Out :=
  match toInt (F.pow (F.ofLong (pnInt (word x))) (F.ofLong (pnInt (word y)))) with
  | none => .undef
  | some z => .int (pnNum z)

/-- vm.c:763 `OP_CMP` (`<=>`). -/
def vmOrder (x y : Val) : Out := .int (vmCmpOp (word x) (word y))

/-- number.c:202-207 `potion_num_double`. -/
def numDouble (F : Fpu) (x : Val) : Double := pnDbl F x

/-- number.c:211-216 `potion_num_integer`: `PN_NUM(floor(d))` converts a double to `unsigned long`, which is undefined below zero and from
2^64 on; `PN_NUM` drops the top bit. -/
def numInteger : Val → Out
  | .int w => .int w
  | .dbl _ (.fin neg m e) =>
    let fl : Int := if neg then -(if 0 ≤ e then (whole m e : Int) else ((m + 2 ^ (-e).toNat - 1) / 2 ^ (-e).toNat : Nat)) else whole m e
    if 0 ≤ fl ∧ fl < 2 ^ 64 then .int (pnNum fl) else .undef
  | _ => .undef

/-- number.c:359-369 `potion_num_abs`. -/
def numAbs' : Val → Out
  | .int w => .int (numAbs w)
  | .dbl _ d => .dbl (if dlt d zero then (match d with
      | .fin n m e => .fin (!n) m e
      | .inf n => .inf (!n)
      | .nan n => .nan (!n)) else d)
  | .other => .undef

/-- number.c:396-407 `potion_num_cmp`. The argument is converted by `potion_send(PN_number, n)`, with receiver and message exchanged: the string
"number" has no method called `n`, and the result is nil — no double (a null pointer is read), but 0 as an integer. -/
def numCmp' (x n : Val) : Out :=
  match x, n with
  | .dbl .., _ => .undef
  | .int a, .int b => .int (numCmp a b)
  | .int a, _ => .int (numCmp a PN_NIL)
  | .other, _ => .undef

end Potion.Mixed
