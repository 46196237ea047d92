import Verif.Model.Vm
import Verif.Spec.Lang
/-!
What the compiler theorems speak about: how values are shown as machine words, and the classes of programs for which the
full claim holds of the code.
-/
namespace Potion.Compile
open Potion Potion.Spec

/-- The machine word of a value (potion.h:150-165); functions are heap objects. -/
def RV : V → PN → Prop
  | .int i, w => Denotes w i
  | .bool b, w => w = pnBool b
  | .nil, w => w = PN_NIL
  | .fn .., _ => False

/-- What the interpreter holds for a value: its word, or for a function some closure. -/
def Shows (s : Vm.State) : V → Vm.Val → Prop
  | .fn .., r => ∃ n g up, r = .obj n ∧ s.heap[n]? = some (.clo g up)
  | v, r => ∃ w, r = .imm w ∧ RV v w

/-- The value of local number `i` of the main program: the stack word, or what the cell it refers to holds. -/
def localVal (s : Vm.State) (i : Nat) : Option Vm.Val :=
  match s.isRef (s.stack i) with
  | some n => s.deref n
  | none => some (s.stack i)

/-- `g` is the function `f` or one of those written in it. -/
inductive Within : Vm.Proto → Vm.Proto → Prop
  | self (f) : Within f f
  | sub {g h f} : h ∈ f.protos → Within g h → Within g f

/-- The code of `f` and the functions in it fits the operands of the instructions, and the stack has room for `d` nested
calls: no frame is larger than `K` words, and 300 registers are left. -/
def Roomy (f : Vm.Proto) (d : Nat) : Prop :=
  ∃ K, (d + 1) * K + 300 ≤ 4096 ∧ ∀ g, Within g f → g.len ≤ 2048 ∧ g.values.length ≤ 2048 ∧ g.protos.length ≤ 2048 ∧
    g.localsize ≤ 2048 ∧ g.upvalsize ≤ 2048 ∧ g.upvalsize + g.localsize + g.stack + 3 ≤ K

/-- Order comparisons claimed of the interpreter: both operands negative or both not. -/
def sameSign (i j : Int) : Bool := decide (0 ≤ i ↔ 0 ≤ j)

/-- What is claimed of the interpreter: everything but order comparisons of integers of different signs. -/
def interpreter : Claims := { rel := sameSign, arith := fun _ _ _ => true, unset := true }

/-- The value, if there is one, is never `false` or `nil` by its form. -/
def posval : Prog → Bool
  | .int _ => true
  | .bool b => b
  | .assign _ e => posval e
  | .incr .. => true
  | .arith .. => true
  | .bitnot _ => true
  | .and a b => posval a && posval b
  | .or _ b => posval b
  | .group a => posval a
  | .fn .. => true
  | _ => false

/-- Code that, when it ends normally, leaves a true word in the register after its own if there was one before. (A call
stores the receiver there: `own` tells that the receiver of the program is neither `nil` nor `false`.) -/
def keeps (own : Bool) : Prog → Bool
  | .int _ | .bool _ | .nil | .var _ | .incr .. | .arith .. | .rel .. | .nop | .brk | .cont | .ret _ | .retNil | .fn .. => true
  | .assign _ e => keeps own e
  | .eq _ _ b => posval b
  | .not a | .bitnot a | .group a => keeps own a
  | .and a b | .or a b | .seq a b => keeps own a && keeps own b
  | .call .. => own
  | .ifs .. | .while .. | .loop _ => false

mutual
/-- Every branch of an `if` that has another branch after it keeps the condition register. -/
def guarded (own : Bool) : Prog → Bool
  | .int _ | .bool _ | .nil | .var _ | .incr .. | .nop | .brk | .cont | .retNil => true
  | .assign _ e => guarded own e
  | .arith _ a b | .rel _ a b | .eq _ a b | .and a b | .or a b | .seq a b | .while a b => guarded own a && guarded own b
  | .not a | .bitnot a | .group a | .loop a | .ret a => guarded own a
  | .ifs c a r => guarded own c && guarded own a && guardedTail own a r
  | .fn _ b => guarded own b
  | .call _ as => guardedArgs own as
def guardedTail (own : Bool) : Prog → Else → Bool
  | _, .none => true
  | p, .els a => keeps own p && guarded own a
  | p, .elsif c a r => keeps own p && guarded own c && guarded own a && guardedTail own a r
def guardedArgs (own : Bool) : Args → Bool
  | .nil => true
  | .cons a r => guarded own a && guardedArgs own r
end

/-- Expressions: no statements, control flow, functions or calls. -/
def isExpr : Prog → Bool
  | .int _ | .bool _ | .nil | .var _ | .incr .. => true
  | .assign _ e => isExpr e
  | .arith _ a b | .rel _ a b | .eq _ a b | .and a b | .or a b => isExpr a && isExpr b
  | .not a | .bitnot a | .group a => isExpr a
  | _ => false

mutual
/-- Registers a program needs above the first. -/
def depth : Prog → Nat
  | .assign _ e => depth e
  | .incr .. => 2
  | .arith _ a b | .rel _ a b | .eq _ a b => max (depth a) (depth b + 1)
  | .and a b | .or a b | .seq a b => max (depth a) (depth b)
  | .not a | .bitnot a | .group a | .ret a => depth a
  | .ifs c a r => max (max (depth c + 1) (depth a)) (depthTail r)
  | .while c a => max (depth c + 1) (depth a)
  | .loop a => max 1 (depth a)
  | .fn _ b => depth b
  | .call _ as => depthArgs as + 2
  | _ => 0
def depthTail : Else → Nat
  | .none => 0
  | .elsif c a r => max (max (depth c + 1) (depth a)) (depthTail r)
  | .els a => max 1 (depth a)
def depthArgs : Args → Nat
  | .nil => 0
  | .cons a r => max (depth a) (depthArgs r + 1)
end

mutual
/-- Uses of variables, and parameters. -/
def vars : Prog → Nat
  | .var _ | .incr .. => 1
  | .assign _ e => vars e + 1
  | .arith _ a b | .rel _ a b | .eq _ a b | .and a b | .or a b | .seq a b | .while a b => vars a + vars b
  | .not a | .bitnot a | .group a | .loop a | .ret a => vars a
  | .ifs c a r => vars c + vars a + varsTail r
  | .fn ps b => ps.length + vars b
  | .call _ as => varsArgs as + 1
  | _ => 0
def varsTail : Else → Nat
  | .none => 0
  | .elsif c a r => vars c + vars a + varsTail r
  | .els a => vars a
def varsArgs : Args → Nat
  | .nil => 0
  | .cons a r => vars a + varsArgs r
end

mutual
/-- A bound for the number of instructions. -/
def size : Prog → Nat
  | .int _ | .bool _ | .nil | .var _ | .brk | .cont => 1
  | .nop => 0
  | .retNil => 2
  | .incr .. => 5
  | .assign _ e => size e + 1
  | .arith _ a b | .rel _ a b | .eq _ a b | .and a b | .or a b => size a + size b + 1
  | .seq a b => size a + size b
  | .while a b => size a + size b + 2
  | .not a | .bitnot a | .loop a | .ret a => size a + 1
  | .group a => size a
  | .ifs c a r => size c + size a + 1 + sizeTail r
  | .fn _ b => vars b + size b + 1
  | .call _ as => sizeArgs as + 3
def sizeTail : Else → Nat
  | .none => 0
  | .elsif c a r => size c + size a + 2 + sizeTail r
  | .els a => size a + 1
def sizeArgs : Args → Nat
  | .nil => 0
  | .cons a r => size a + sizeArgs r
end

/-- Small programs: at most 2047 instructions, as many variables and registers, and the stack has room for the variables and registers of `d` nested calls. -/
def fits (p : Prog) (d : Nat) : Prop := size p ≤ 2047 ∧ vars p + depth p ≤ 2047 ∧
  (d + 1) * (vars p + depth p + 4) + 300 ≤ 4096

/-- Add a name. -/
def known (L : List Ident) (x : Ident) : List Ident := if x ∈ L then L else L ++ [x]

/-- Where variables may be used: `none` in the main program, `some O` in a function that sees the variables `O` of its
surroundings. -/
abbrev Outside := Option (List Ident)

def sees (out : Outside) (L : List Ident) (x : Ident) : Bool := decide (x ∈ L) || decide (x ∈ out.getD [])

/-- The variables after an assignment to `x`: the main program may introduce variables, functions may not. -/
def binds (out : Outside) (L : List Ident) (x : Ident) : Option (List Ident) :=
  match out with
  | none => some (known L x)
  | some O => if x ∈ L ∨ x ∈ O then some L else none

def isAssignP : Prog → Bool
  | .assign .. => true
  | _ => false

mutual
/-- The variables known after a program, given those known before: a variable must have been assigned earlier in the
text, parentheses only stand around operands (`arg`), `break` and `continue` only in loops (`inl`). Functions have
different parameters, and use no variables but these and those known around them. `word` and `glob` tell which names are
reserved words and which are globals. -/
def inScope (word glob : Ident → Bool) : Outside → (arg inl : Bool) → Prog → List Ident → Option (List Ident)
  | _, _, _, .int _, L | _, _, _, .bool _, L | _, _, _, .nil, L | _, _, _, .nop, L | _, _, _, .retNil, L => some L
  | _, _, inl, .brk, L | _, _, inl, .cont, L => if inl then some L else none
  | out, _, _, .var x, L => if sees out L x ∧ word x = false then some L else none
  | out, _, inl, .assign x e, L => if glob x then none else (binds out L x).bind (inScope word glob out false inl e)
  | out, _, _, .incr _ _ x, L => binds out L x
  | out, _, inl, .arith _ a b, L | out, _, inl, .rel _ a b, L | out, _, inl, .eq _ a b, L | out, _, inl, .and a b, L | out, _, inl, .or a b, L =>
    (inScope word glob out true inl a L).bind (inScope word glob out true inl b)
  | out, _, inl, .not a, L | out, _, inl, .bitnot a, L => inScope word glob out true inl a L
  | out, arg, inl, .group a, L => if arg then inScope word glob out false inl a L else none
  | out, _, inl, .seq a b, L => (inScope word glob out false inl a L).bind (inScope word glob out false inl b)
  | out, _, inl, .ifs c a r, L =>
    ((inScope word glob out false inl c L).bind (inScope word glob out false inl a)).bind (inScopeTail word glob out inl r)
  | out, _, inl, .while c a, L => (inScope word glob out false inl c L).bind (inScope word glob out false true a)
  | out, _, _, .loop a, L => inScope word glob out false true a L
  | out, _, inl, .ret a, L => inScope word glob out false inl a L
  | out, _, _, .fn ps b, L =>
    if ps.Nodup ∧ (inScope word glob (some (L ++ out.getD [])) false false b ps).isSome then some L else none
  | out, _, inl, .call x as, L => if sees out L x ∧ word x = false then inScopeArgs word glob out inl as L else none
def inScopeTail (word glob : Ident → Bool) : Outside → (inl : Bool) → Else → List Ident → Option (List Ident)
  | _, _, .none, L => some L
  | out, inl, .elsif c a r, L =>
    ((inScope word glob out false inl c L).bind (inScope word glob out false inl a)).bind (inScopeTail word glob out inl r)
  | out, inl, .els a, L => inScope word glob out false inl a L
/-- An argument `x = e` would be a named argument. -/
def inScopeArgs (word glob : Ident → Bool) : Outside → (inl : Bool) → Args → List Ident → Option (List Ident)
  | _, _, .nil, L => some L
  | out, inl, .cons a r, L =>
    if isAssignP a then none else (inScope word glob out false inl a L).bind (inScopeArgs word glob out inl r)
end

mutual
/-- Number of `break` and `continue` statements. -/
def jumps : Prog → Nat
  | .brk | .cont => 1
  | .assign _ e => jumps e
  | .arith _ a b | .rel _ a b | .eq _ a b | .and a b | .or a b | .seq a b | .while a b => jumps a + jumps b
  | .not a | .bitnot a | .group a | .loop a | .ret a => jumps a
  | .ifs c a r => jumps c + jumps a + jumpsTail r
  | .fn _ b => jumps b
  | .call _ as => jumpsArgs as
  | _ => 0
def jumpsTail : Else → Nat
  | .none => 0
  | .elsif c a r => jumps c + jumps a + jumpsTail r
  | .els a => jumps a
def jumpsArgs : Args → Nat
  | .nil => 0
  | .cons a r => jumps a + jumpsArgs r
end

end Potion.Compile
