import Verif.Spec.Send
/-!
Specification for C77_statements: programs of expressions (Spec/Send.lean) with `if`, `elsif`, `else`, `while`, `loop`, `break`, `continue` and `return`, and what they
mean. A program may never end, so its meaning is a relation: between where it starts and how it ends.
-/
namespace Potion.Send
open Potion Potion.Peg Potion.CompileAll

mutual
inductive Stm
  | ex (e : Ex)
  | ifs (c : Ex) (b : Stms) (t : Tails)     -- if (c): b. …
  | while (c : Ex) (b : Stms)               -- while (c): b.
  | loop (b : Stms)                         -- loop: b.
  | brk                                     -- break
  | cont                                    -- continue
  | ret (e : Ex)                            -- return (e)
inductive Stms
  | nil
  | cons (x : Stm) (r : Stms)
/-- What follows an `if`. -/
inductive Tails
  | none
  | els (b : Stms)                          -- else: b.
  | elsif (c : Ex) (b : Stms) (t : Tails)   -- elsif (c): b. …
end

/-! ### The trees -/

/-- `x (c): b.` -/
def under (x : String) (c : Ex) (b : List Tree) : Tree := .node .msg (.str (Compile.bytesOf x)) (leaf .list (.tup [tree c])) (leaf .block (tupOf b))

/-- A word on its own. -/
def wordTree (x : String) : Tree := leaf .expr (.tup [.node .msg (.str (Compile.bytesOf x)) .nil .nil])

mutual
def stmTree : Stm → Tree
  | .ex e => tree e
  | .ifs c b t => leaf .expr (.tup (under "if" c (stmTrees b) :: tailTrees t))
  | .while c b => leaf .expr (.tup [under "while" c (stmTrees b)])
  | .loop b => leaf .expr (.tup [.node .msg (.str (Compile.bytesOf "loop")) .nil (leaf .block (tupOf (stmTrees b)))])
  | .brk => wordTree "break"
  | .cont => wordTree "continue"
  | .ret e => leaf .expr (.tup [.node .msg (.str (Compile.bytesOf "return")) (leaf .list (.tup [tree e])) .nil])
def stmTrees : Stms → List Tree
  | .nil => []
  | .cons x r => stmTree x :: stmTrees r
def tailTrees : Tails → List Tree
  | .none => []
  | .els b => [.node .msg (.str (Compile.bytesOf "else")) .nil (leaf .block (tupOf (stmTrees b)))]
  | .elsif c b t => under "elsif" c (stmTrees b) :: tailTrees t
end

/-! ### Names -/

mutual
def namesS : Stm → List Ident → List Ident
  | .ex e, K | .ret e, K => namesE e K
  | .ifs c b t, K => namesT t (namesB b (namesE c K))
  | .while c b, K => namesB b (namesE c K)
  | .loop b, K => namesB b K
  | .brk, K | .cont, K => K
def namesB : Stms → List Ident → List Ident
  | .nil, K => K
  | .cons x r, K => namesB r (namesS x K)
def namesT : Tails → List Ident → List Ident
  | .none, K => K
  | .els b, K => namesB b K
  | .elsif c b t, K => namesT t (namesB b (namesE c K))
end

/-! ### Which statements -/

/-- A literal, `self`, a variable, or one of them assigned to variables: needs no other register. -/
def quietE : Ex → List Ident → Bool
  | .chain (.lit _), _ | .chain .me, _ => true
  | .chain (.send .here m), K => K.contains m
  | .set x e, K => quietE e (addName K x)
  | _, _ => false
/-- If the statement ends and the next one is run, no other register has changed. -/
def quietS : Stm → List Ident → Bool
  | .ex e, K => quietE e K
  | .brk, _ | .cont, _ | .ret _, _ => true
  | _, _ => false
def quietB : Stms → List Ident → Bool
  | .nil, _ => true
  | .cons x r, K => quietS x K && quietB r (namesS x K)
def Tails.isNone : Tails → Bool
  | .none => true
  | _ => false

/-! How many `break`s and `continue`s there are outside of the loops in it. -/
mutual
def jumpsS (b : Bool) : Stm → Nat
  | .brk => if b then 1 else 0
  | .cont => if b then 0 else 1
  | .ifs _ x t => jumpsB b x + jumpsT b t
  | .ex _ | .while .. | .loop _ | .ret _ => 0
def jumpsB (b : Bool) : Stms → Nat
  | .nil => 0
  | .cons x r => jumpsS b x + jumpsB b r
def jumpsT (b : Bool) : Tails → Nat
  | .none => 0
  | .els x => jumpsB b x
  | .elsif _ x t => jumpsB b x + jumpsT b t
end

/-- The compiler has room for 1024 of each (C69_refuted_breaks). -/
def fewJumps (b : Stms) : Bool := decide (jumpsB true b ≤ 1024) && decide (jumpsB false b ≤ 1024)

/-! An `else` or `elsif` looks at the register of the condition again, after the branch has run (`C26_refuted_branch`): before one, a branch may only be quiet. -/
mutual
def okS : Stm → List Ident → Bool
  | .ex e, _ | .ret e, _ => okE e
  | .ifs c b t, K => okE c && okB b (namesE c K) && (t.isNone || quietB b (namesE c K)) && okT t (namesB b (namesE c K))
  | .while c b, K => okE c && okB b (namesE c K) && fewJumps b
  | .loop b, K => okB b K && fewJumps b
  | .brk, _ | .cont, _ => true
def okB : Stms → List Ident → Bool
  | .nil, _ => true
  | .cons x r, K => okS x K && okB r (namesS x K)
def okT : Tails → List Ident → Bool
  | .none, _ => true
  | .els b, K => okB b K
  | .elsif c b t, K => okE c && okB b (namesE c K) && (t.isNone || quietB b (namesE c K)) && okT t (namesB b (namesE c K))
end

/-- A program: `break` and `continue` only in loops. -/
def okP (b : Stms) : Bool := okB b [] && decide (jumpsB true b = 0) && decide (jumpsB false b = 0)

/-! ### Meaning -/

variable {V S E : Type}

/-- How something ends: with an error, or a value and a memory. -/
abbrev Res (V S E α : Type) := Except E (α × Mem V S)

/-- How statements end: at their end, or by `break`, `continue` or `return`; with the value so far, or the one returned. -/
inductive Exit (V : Type)
  | norm (v : V)
  | brk (v : V)
  | cont (v : V)
  | ret (v : V)
def Exit.value : Exit V → V
  | .norm v | .brk v | .cont v | .ret v => v

/-- Nothing happens. -/
def Stay {α : Type} (a : α) (s : Mem V S) (r : Res V S E α) : Prop := r = .ok (a, s)

/-- First `x`, then `y` with its value; an error ends both. -/
def Then {α β : Type} (x : Mem V S → Res V S E α → Prop) (y : α → Mem V S → Res V S E β → Prop) (s : Mem V S) (r : Res V S E β) : Prop :=
  (∃ e, x s (.error e) ∧ r = .error e) ∨ ∃ a s', x s (.ok (a, s')) ∧ y a s' r

/-- On with the next statement, unless there was a jump. -/
def Next (y : V → Mem V S → Res V S E (Exit V) → Prop) : Exit V → Mem V S → Res V S E (Exit V) → Prop
  | .norm v => y v
  | .brk v => Stay (.brk v)
  | .cont v => Stay (.cont v)
  | .ret v => Stay (.ret v)

/-- Whether the value of an expression counts as true. -/
def test (W : World V S E) (x : Mem V S → Res V S E V) (s : Mem V S) : Res V S E Bool :=
  match x s with
  | .error e => .error e
  | .ok (a, s') => .ok (W.truth a, s')

/-- `body` as long as the condition `c` is true and there is no `break` or `return`; `v` is the value so far. -/
inductive Loop (c : Mem V S → Res V S E Bool) (body : V → Mem V S → Res V S E (Exit V) → Prop) : V → Mem V S → Res V S E (Exit V) → Prop
  | fail {v s e} : c s = .error e → Loop c body v s (.error e)
  | done {v s s'} : c s = .ok (false, s') → Loop c body v s (.ok (.norm v, s'))
  | bodyFail {v s s' e} : c s = .ok (true, s') → body v s' (.error e) → Loop c body v s (.error e)
  | brk {v s s' v' s''} : c s = .ok (true, s') → body v s' (.ok (.brk v', s'')) → Loop c body v s (.ok (.norm v', s''))
  | ret {v s s' v' s''} : c s = .ok (true, s') → body v s' (.ok (.ret v', s'')) → Loop c body v s (.ok (.ret v', s''))
  | again {v s s' v' s'' r} : c s = .ok (true, s') → body v s' (.ok (.norm v', s'')) → Loop c body v' s'' r → Loop c body v s r
  | cont {v s s' v' s'' r} : c s = .ok (true, s') → body v s' (.ok (.cont v', s'')) → Loop c body v' s'' r → Loop c body v s r

mutual
/-- `RunS W me x K v s r`: started in `s`, with `v` the value of the statement before, `x` ends with `r`. -/
def RunS (W : World V S E) (me : V) : Stm → List Ident → V → Mem V S → Res V S E (Exit V) → Prop
  | .ex e, K, _ => Then (fun s r => evalE W me false e K s = r) fun a => Stay (.norm a)
  | .ret e, K, _ => Then (fun s r => evalE W me false e K s = r) fun a => Stay (.ret a)
  | .brk, _, v => Stay (.brk v)
  | .cont, _, v => Stay (.cont v)
  | .ifs c b t, K, v => Then (fun s r => evalE W me false c K s = r) fun a =>
      if W.truth a then RunB W me b (namesE c K) v else RunT W me t (namesB b (namesE c K)) v
  | .while c b, K, v => Loop (test W (evalE W me false c K)) (RunB W me b (namesE c K)) v
  | .loop b, K, v => Loop (fun s => .ok (true, s)) (RunB W me b K) v
def RunB (W : World V S E) (me : V) : Stms → List Ident → V → Mem V S → Res V S E (Exit V) → Prop
  | .nil, _, v => Stay (.norm v)
  | .cons x r, K, v => Then (RunS W me x K v) (Next fun v => RunB W me r (namesS x K) v)
/-- What follows an `if` that was not taken. -/
def RunT (W : World V S E) (me : V) : Tails → List Ident → V → Mem V S → Res V S E (Exit V) → Prop
  | .none, _, v => Stay (.norm v)
  | .els b, K, v => RunB W me b K v
  | .elsif c b t, K, v => Then (fun s r => evalE W me false c K s = r) fun a =>
      if W.truth a then RunB W me b (namesE c K) v else RunT W me t (namesB b (namesE c K)) v
end

/-- A program ends with the value at its end or the one returned. -/
def RunP (W : World V S E) (me : V) (b : Stms) (v : V) : Mem V S → Res V S E V → Prop :=
  Then (RunB W me b [] v) fun o => Stay o.value

/-- The tree of a program. -/
def programS (b : Stms) : Tree := leaf .code (tupOf (stmTrees b))

end Potion.Send
