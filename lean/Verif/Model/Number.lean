import Verif.Model.Word
/-!
Model of integer arithmetic: the number methods (/repo/core/number.c), the interpreter's operators
(/repo/core/vm.c) and the x86-64 JIT's inlined integer operators (/repo/core/vm-x86.c).

C `long` values are mathematical integers; an operation whose behaviour C leaves undefined is `none`.
Doubles are abstract: a type `D` with a conversion from `long` and an operation (no floating-point facts are used).
-/
namespace Potion

/-- A number value: an immediate word, or a boxed double (potion.h:193-205). -/
inductive Num (D : Type) where
  | imm (w : PN)
  | dbl (d : D)

/-- Arithmetic operators. -/
inductive AOp | add | sub | mul | div | rem | shl | shr
  deriving DecidableEq, Repr

/-- A C `long` result is defined only if representable (ISO C 6.5p5). -/
def defined (i : Int) : Option Int := if FitsLong i then some i else none

/-- C semantics of `a op b` on `long`s. `/`, `%` truncate toward zero; division by zero is undefined.
Shifts: count outside `[0,63]` is undefined. Left shift follows GCC/Clang's two's-complement behaviour (wraps modulo
2^64); right shift of negatives is arithmetic. -/
def cArith (op : AOp) (a b : Int) : Option Int :=
  match op with
  | .add => defined (a + b)
  | .sub => defined (a - b)
  | .mul => defined (a * b)
  | .div => if b = 0 then none else defined (Int.tdiv a b)
  | .rem => if b = 0 then none else if FitsLong (Int.tdiv a b) then some (Int.tmod a b) else none
  | .shl => if 0 ≤ b ∧ b < 64 then some (Int.bmod (a * 2 ^ b.toNat) (2^64)) else none
  | .shr => if 0 ≤ b ∧ b < 64 then some (a / 2 ^ b.toNat) else none

/-- number.c:45-50 `PN_NUM_MATH`, 64-135 (`potion_num_add/sub/mult/div/rem/bitl/bitr`), integer branch; and
number.c:51-54, 137-182 (`potion_int_*`), which are the same expression. -/
def numMeth (op : AOp) (self num : PN) : Option PN :=
  (cArith op (pnInt self) (pnInt num)).map pnNum

/-- number.c:109-113 / 169-171 `potion_num_bitn` on an integer: `PN_NUM(~PN_INT(self))`; `~i = -i-1`. -/
def numBitn (self : PN) : PN := pnNum (-(pnInt self) - 1)

/-- number.c:357-376 `potion_num_abs`/`potion_int_abs` on an integer: `PN_NUM(labs(PN_INT(self)))`. -/
def numAbs (self : PN) : PN := pnNum (pnInt self).natAbs

/-- number.c:430-437 `potion_int_cmp` (and the integer branch of `potion_num_cmp`, 398-403). -/
def numCmp (self n : PN) : PN :=
  let n1 := pnInt self
  let n2 := pnInt n
  if n1 < n2 then pnNum (-1) else if n1 = n2 then PN_ZERO else pnNum 1

/-- limits.h `LONG_MAX`/`LONG_MIN` as words, used at vm.c:388-389. -/
def LONG_MAX : PN := BitVec.ofInt 64 (2^63 - 1)
def LONG_MIN : PN := BitVec.ofInt 64 (-(2^63))

/-- `__builtin_s{add,sub,mul}l_overflow` (GCC manual): flag and the result modulo 2^64. -/
def builtinOverflow (op : AOp) (a b : Int) : Bool × Int :=
  let exact := match op with
    | .add => a + b
    | .sub => a - b
    | _ => a * b
  (!decide (FitsLong exact), Int.bmod exact (2^64))

/-- vm.c:384-401 `PN_VM_MATH3` on two integers: checked operation, promotion to double on overflow.
`dblOp` is the C double operation on the two operands converted with `PN_DBL`. -/
def vmMath3 {D : Type} (op : AOp) (ofLong : Int → D) (dblOp : D → D → D) (ra rb : PN) : Num D :=
  let r := builtinOverflow op (pnInt ra) (pnInt rb)
  if r.1 || decide (r.2 > pnInt LONG_MAX) || decide (r.2 < pnInt LONG_MIN) then
    .dbl (dblOp (ofLong (pnInt ra)) (ofLong (pnInt rb)))
  else .imm (pnNum r.2)

/-- vm.c:369-376 `PN_VM_MATH2` on two integers (DIV, REM, BITL, BITR; vm.c:753-754, 790-791). -/
def vmMath2 (op : AOp) (ra rb : PN) : Option PN := (cArith op (pnInt ra) (pnInt rb)).map pnNum

/-- Comparison operators. -/
inductive COp | lt | le | gt | ge
  deriving DecidableEq, Repr

/-- The mathematical relation meant by a comparison operator. -/
def COp.rel (c : COp) (a b : Int) : Bool :=
  match c with
  | .lt => decide (a < b)
  | .le => decide (a ≤ b)
  | .gt => decide (a > b)
  | .ge => decide (a ≥ b)

/-- vm.c:409-416 `PN_VM_NUMCMP` on two integers: `PN_BOOL(reg[op.a] cmp reg[op.b])`. `reg` has type `PN*`, and
`PN` is unsigned (potion.h:87), so the C comparison is unsigned. -/
def vmNumCmp (c : COp) (ra rb : PN) : PN :=
  pnBool (match c with
    | .lt => decide (ra.toNat < rb.toNat)
    | .le => decide (ra.toNat ≤ rb.toNat)
    | .gt => decide (ra.toNat > rb.toNat)
    | .ge => decide (ra.toNat ≥ rb.toNat))

/-- vm-x86.c:133-143, 761-786 `X86_NUMCMP` both-int path: `cmp %rax,%rdx` then jl/jle/jg/jge (signed). -/
def jitNumCmp (c : COp) (ra rb : PN) : PN :=
  pnBool (match c with
    | .lt => decide (ra.toInt < rb.toInt)
    | .le => decide (ra.toInt ≤ rb.toInt)
    | .gt => decide (ra.toInt > rb.toInt)
    | .ge => decide (ra.toInt ≥ rb.toInt))

/-- vm.c:763 `OP_CMP`: `PN_NUM(PN_INT(reg[op.b]) - PN_INT(reg[op.a]))`. -/
def vmCmpOp (ra rb : PN) : PN := pnNum (pnInt rb - pnInt ra)

/-- vm.c:766-770: `OP_NOT` (non-P2 build). -/
def vmNot (ra : PN) : PN := pnBool (!pnTest ra)

/-- vm.c:796-797: `OP_TEST`. -/
def vmTest (ra : PN) : PN := pnBool (pnTest ra)

/-- vm.c:422-431 `potion_vm_eq` when neither operand is a heap pointer: word equality. -/
def vmEqImm (ra rb : PN) : PN := pnBool (ra == rb)

/-- vm-x86.c:674-680 `potion_x86_add` both-int path: `lea -1(%rax,%rdx,1),%rax`; `lea` leaves the flags of the
preceding `test` (OF=0), so the following `jo` is never taken. -/
def jitAdd (ra rb : PN) : PN := ra + rb - 1#64

/-- vm-x86.c:682-689 `potion_x86_sub` both-int path: `sub %rdx,%rax; jo slow; inc %rax`; the slow path calls
`potion_obj_sub`, i.e. the Number method `-` (number.c:72-74). -/
def jitSub (ra rb : PN) : Option PN :=
  if FitsLong (ra.toInt - rb.toInt) then some (ra - rb + 1#64) else numMeth .sub ra rb

/-- vm-x86.c:691-700 `potion_x86_mult` both-int path: `sar %rdx; dec %rax; imul %rdx,%rax; jo slow; inc %rax`. -/
def jitMult (ra rb : PN) : Option PN :=
  let d := BitVec.sshiftRight rb 1
  let a := ra - 1#64
  if FitsLong (a.toInt * d.toInt) then some (a * d + 1#64) else numMeth .mul ra rb

/-- Machine division `idiv` on 32-bit operands: traps (here `none`) on zero divisor or quotient overflow. -/
def idiv32 (a c : BitVec 32) : Option (BitVec 32 × BitVec 32) :=
  if c.toInt = 0 then none
  else
    let q := Int.tdiv a.toInt c.toInt
    if -(2^31) ≤ q ∧ q < 2^31 then some (BitVec.ofInt 32 q, BitVec.ofInt 32 (Int.tmod a.toInt c.toInt)) else none

/-- vm-x86.c:702-713 `potion_x86_div` both-int path. No REX prefix: every instruction works on the low 32 bits and
zero-extends its result into the 64-bit register. -/
def jitDiv (ra rb : PN) : Option PN :=
  let a := BitVec.sshiftRight (ra.setWidth 32) 1
  let c := BitVec.sshiftRight (rb.setWidth 32) 1
  (idiv32 a c).map fun qr => (qr.1 + qr.1 + 1#32).setWidth 64

/-- vm-x86.c:715-726 `potion_x86_rem` both-int path, 32-bit as `jitDiv`. -/
def jitRem (ra rb : PN) : Option PN :=
  let a := BitVec.sshiftRight (ra.setWidth 32) 1
  let c := BitVec.sshiftRight (rb.setWidth 32) 1
  (idiv32 a c).map fun qr => (qr.2 + qr.2 + 1#32).setWidth 64

/-- vm-x86.c:789-795 `potion_x86_bitn`: `not %rax; inc %rax`. -/
def jitBitn (ra : PN) : PN := ~~~ra + 1#64

/-- vm-x86.c:867-884: `potion_x86_test`, `potion_x86_not` and `potion_x86_cmp` are the same code sequence; CMP is
compiled to a truth test of its left operand. -/
def jitTest (ra : PN) : PN := if ra == PN_FALSE || ra == PN_NIL then PN_FALSE else PN_TRUE
def jitNot (ra : PN) : PN := if ra == PN_FALSE || ra == PN_NIL then PN_TRUE else PN_FALSE
def jitCmpOp (ra _rb : PN) : PN := jitTest ra

/-! ### Iteration (number.c:276-328). The callback is abstracted to the list of arguments it is called with. -/

/-- number.c:283-285 `for (i = 0; i < j; i++) block(i)`; `n` is an iteration budget.
Returns the arguments passed in order and the final `i`; `none` if the budget does not suffice. -/
def timesLoop : (fuel : Nat) → (i j : Int) → Option (List Int × Int)
  | 0, _, _ => none
  | n+1, i, j => if i < j then (timesLoop n (i+1) j).map fun r => (i :: r.1, r.2) else some ([], i)

/-- number.c:276-286 `potion_int_times`. -/
def intTimes (fuel : Nat) (self : PN) : Option (List PN × PN) :=
  (timesLoop fuel 0 (pnInt self)).map fun r => (r.1.map pnNum, pnNum r.2)

/-- number.c:303 `for (i = j; i != k + s; i += s) block(i)`. `stop = k + s`. -/
def toLoop : (fuel : Nat) → (i stop s : Int) → Option (List Int × Int)
  | 0, _, _, _ => none
  | n+1, i, stop, s =>
    if i ≠ stop then (toLoop n (i+s) stop s).map fun r => (i :: r.1, r.2) else some ([], i)

/-- number.c:295-306 `potion_int_to`. -/
def intTo (fuel : Nat) (self end_ : PN) : Option (List PN × PN) :=
  let j := pnInt self
  let k := pnInt end_
  let s : Int := if k < j then -1 else 1
  (toLoop fuel j (k + s) s).map fun r => (r.1.map pnNum, pnNum (r.2 - j).natAbs)

/-- number.c:323-325 `for (i = PN_INT(self); i <= j; i += k) block(i)`; C signed overflow of `i += k` is undefined and
ends the model loop with `none` just like running out of budget. -/
def stepLoop : (fuel : Nat) → (i j k : Int) → Option (List Int × Int)
  | 0, _, _, _ => none
  | n+1, i, j, k =>
    if i ≤ j then
      (if FitsLong (i+k) then (stepLoop n (i+k) j k).map fun r => (i :: r.1, r.2) else none)
    else some ([], i)

/-- number.c:314-327 `potion_int_step`: returns `PN_NUM(labs(i - j) / k)`; `k = 0` divides by zero. -/
def intStep (fuel : Nat) (self end_ step : PN) : Option (List PN × PN) :=
  let j := pnInt end_
  let k := pnInt step
  (stepLoop fuel (pnInt self) j k).bind fun r =>
    if k = 0 then none else some (r.1.map pnNum, pnNum (Int.tdiv (r.2 - j).natAbs k))

/-- number.c:333-337 `potion_int_chr`: `char c = PN_INT(self)`, i.e. the low byte. -/
def intChr (self : PN) : BitVec 8 := BitVec.ofInt 8 (pnInt self)

end Potion
