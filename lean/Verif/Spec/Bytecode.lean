import Verif.Model.CompileAll
/-!
When a function in bytecode stays inside its own frame: what each instruction touches, read off the interpreter
(/repo/core/vm.c 692-940), not off the compiler.
-/
namespace Potion.CompileAll
open Potion Potion.Peg

/-- The sizes of a function's parts: `stack` registers, locals, upvalues, constants, for each function written in it the
number of upvalues it takes, the instructions, and the last position a jump may lead to. -/
structure Frame where
  stack : Nat
  locals : Nat
  upvals : Nat
  values : Nat
  protos : List Nat
  code : Nat → Ins
  len : Nat
  last : Nat

/-- Register number `x` exists. -/
def Frame.reg (F : Frame) (x : Int) : Prop := 0 ≤ x ∧ x < F.stack
/-- Position `p` may be jumped to. -/
def Frame.pos (F : Frame) (p : Int) : Prop := 0 ≤ p ∧ p ≤ F.last
/-- Element `x` of a table of `n` elements. -/
def elem (n : Nat) (x : Int) : Prop := 0 ≤ x ∧ x < n

/-- vm.c:909-925: the closure made at `k` takes its upvalues from the `n` instructions after it. -/
def Frame.takes (F : Frame) (k n : Nat) : Prop :=
  ∀ j < n, k + 1 + j < F.len ∧ ((F.code (k + 1 + j)).op = .getupval ∨ (F.code (k + 1 + j)).op = .getlocal)

/-- The instruction at `k` touches nothing outside (vm.c:692-940; the register NAMED stores into depends on the signature of
the function called and is not counted, nor the element GETTUPLE reads). -/
def Frame.ins (F : Frame) (k : Nat) : Prop :=
  let a := (F.code k).a
  let b := (F.code k).b
  match (F.code k).op with
  | .loadpn | .self | .newtuple | .test | .ret => F.reg a
  | .loadk => F.reg a ∧ elem F.values b
  | .getlocal | .setlocal => F.reg a ∧ elem F.locals b
  | .getupval | .setupval => F.reg a ∧ elem F.upvals b
  | .move | .settuple | .global | .gettable | .getpath | .bind | .msg | .callset | .class => F.reg a ∧ F.reg b
  | .add | .sub | .mult | .div | .rem | .pow | .cmp | .eq | .neq | .lt | .lte | .gt | .gte | .bitl | .bitr | .not | .bitn =>
    F.reg a ∧ F.reg b
  | .settable | .setpath | .def => F.reg a ∧ F.reg (a + 1) ∧ F.reg b
  | .gettuple => F.reg a ∧ 0 ≤ b ∧ (1024 ≤ b → F.reg (b - 1024))
  | .newlick => F.reg a ∧ a ≤ b ∧ F.reg b
  | .named => F.reg a ∧ F.reg (b - 1) ∧ F.reg b
  | .call => F.reg a ∧ a < b ∧ F.reg b
  | .jmp => F.pos ((k : Int) + 1 + a)
  | .testjmp | .notjmp => F.reg a ∧ F.pos ((k : Int) + 1 + b)
  | .proto => F.reg a ∧ ∃ n, 0 ≤ b ∧ F.protos[b.toNat]? = some n ∧ F.takes k n
  | .none | .tailcall | .debug => False

/-- The frame of a function, with `slack` registers and positions more than it has. -/
def Fn.frame (slack : Nat) (f : Fn) : Frame :=
  { stack := f.stack + slack, locals := f.locals.length, upvals := f.upvals.length, values := f.values.length,
    protos := f.protos.map (·.upvals.length), code := f.code, len := f.len, last := f.len - 1 + slack }

/-- Every instruction stays inside, and the last one returns. -/
def Fn.inside (slack : Nat) (f : Fn) : Prop :=
  (∀ k < f.len, (f.frame slack).ins k) ∧ 0 < f.len ∧ (f.code (f.len - 1)).op = .ret

/-- The positions the interpreter can come to, whatever the values are (vm.c:692-940: RETURN ends the function, PROTO goes on
after the instructions its closure takes its upvalues from, a test goes either way). -/
inductive Fn.Reach (f : Fn) : Nat → Prop
  | start : Reach f 0
  | next {k} : Reach f k → (f.code k).op ≠ .ret → (f.code k).op ≠ .jmp → (f.code k).op ≠ .proto → Reach f (k + 1)
  | jump {k} {p : Nat} : Reach f k → (f.code k).op = .jmp → (p : Int) = (k : Int) + 1 + (f.code k).a → Reach f p
  | test {k} {p : Nat} : Reach f k → (f.code k).op = .testjmp ∨ (f.code k).op = .notjmp → (p : Int) = (k : Int) + 1 + (f.code k).b → Reach f p
  | proto {k} {g : Fn} : Reach f k → (f.code k).op = .proto → f.protos[(f.code k).b.toNat]? = some g → Reach f (k + 1 + g.upvals.length)

/-- `g` is the function `f` or one of those written in it. -/
inductive Part : Fn → Fn → Prop
  | self (f) : Part f f
  | sub {g h f} : h ∈ f.protos → Part g h → Part g f

/-- The function fits the instructions: 12-bit operands and 8-bit register numbers. -/
def Fn.fits (f : Fn) : Prop :=
  f.over = false ∧ f.len ≤ 2048 ∧ f.locals.length ≤ 2048 ∧ f.upvals.length ≤ 2048 ∧ f.values.length ≤ 2048 ∧ f.protos.length ≤ 2048

/-- `()` with nothing in it, as an operand. -/
def emptyParens : Tree → Bool
  | .node .expr (.tup (.node .list l _ _ :: _)) _ _ => match l with
    | .tup [] => true
    | _ => isNil l
  | _ => false
/-- The node assigned to. -/
def assigned : Tree → Option Kind
  | .node .expr (.tup l) _ _ => match l.getLast? with
    | some (.node k _ _ _) => some k
    | _ => none
  | .node k _ _ _ => some k
  | _ => none
/-- The node is none of the three whose code leaves the frame: an operator with `()` on its right, `?x = e`, a class with a
body. -/
def fine : Kind → Tree → Tree → Tree → Bool
  | .assign, a, _, _ => assigned a != some .query
  | .msg, .str s, _, c => !(s == Compile.bytesOf "class" && !isNil c)
  | k, _, b, _ => !((binOp k).isSome && emptyParens b)
mutual
/-- No node of the tree is one of these. -/
def Fine : Tree → Bool
  | .node k a b c => fine k a b c && Fine a && Fine b && Fine c
  | .tup l => FineAll l
  | .pair a b => Fine a && Fine b
  | _ => true
def FineAll : List Tree → Bool
  | [] => true
  | t :: l => Fine t && FineAll l
end

end Potion.CompileAll
