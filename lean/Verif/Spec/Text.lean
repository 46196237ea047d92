import Verif.Spec.Syntax
import Verif.Spec.Lang
/-!
Specification: the texts of a program. White space, comments, newlines and digits are free; operators of a level group
from the left, parentheses regroup. Compare Spec/Syntax.lean, which says the same of syntax trees.
-/
namespace Potion.Spec

/-- Whether an `else` may follow; what follows an `if`, in two parts. -/
def Else.isOpen : Else → Bool
  | .none => true
  | .elsif _ _ r => r.isOpen
  | .els _ => false
def Else.append : Else → Else → Else
  | .none, r' => r'
  | .elsif c a r, r' => .elsif c a (r.append r')
  | .els a, _ => .els a

/-- Phrases: an expression of that level (see `Bin.level`; 10: an operand), a statement, statements, `( ... )`, `: ... .`,
what follows an `if`, from its first word on, or as statements, `(a, b)` of a call and what stands inside, `(x, y)` of a function
and what stands inside. -/
inductive Phrase
  | ex (level : Nat) (p : Prog)
  | stmt (p : Prog)
  | stmts (p : Prog)
  | list (p : Prog)
  | block (p : Prog)
  | tail (r : Else)
  | line (r : Else)
  | lines (r : Else)
  | args (as : Args)
  | items (as : Args)
  | params (ps : List Ident)
  | names (ps : List Ident)

/-- The spelling of an operator. -/
def Op.bin : Op → Bin
  | .plus => .plus | .minus => .minus | .times => .times | .over => .div | .mod => .rem | .shl => .bitl | .shr => .bitr
def Rel.bin : Rel → Bin
  | .lt => .lt | .le => .lte | .gt => .gt | .ge => .gte

/-- Names with a meaning of their own. -/
def reserved : List String :=
  ["if", "elsif", "else", "class", "while", "loop", "return", "break", "continue", "self"]
def IsVar (x : Ident) : Prop := IsName x ∧ ∀ s ∈ reserved, x ≠ chars s

/-- Binary operators, with the program they make. -/
inductive Combines : Bin → Prog → Prog → Prog → Prop
  | arith {op a b} : Combines (Op.bin op) a b (.arith op a b)
  | rel {r a b} : Combines (Rel.bin r) a b (.rel r a b)
  | eq {a b} : Combines .eq a b (.eq false a b)
  | ne {a b} : Combines .neq a b (.eq true a b)
  | and {a b} : Combines .and a b (.and a b)
  | or {a b} : Combines .or a b (.or a b)

inductive Says : Phrase → List (BitVec 8) → Prop
  /-- Operands. -/
  | int {ds} : (∀ d ∈ ds, d < 10) → (ds = [0] ∨ ∃ d r, ds = d :: r ∧ d ≠ 0) →
      Says (.ex 10 (.int (numeral 10 ds))) (ds.map digitChar)
  | true : Says (.ex 10 (.bool true)) (chars "true")
  | false : Says (.ex 10 (.bool false)) (chars "false")
  | nil : Says (.ex 10 .nil) (chars "nil")
  | var {x} : IsVar x → Says (.ex 10 (.var x)) x
  | group {p s} : Says (.list p) s → Says (.ex 10 (.group p)) s
  | pre {x up w} : IsVar x → Blank w → Says (.ex 10 (.incr Bool.true up x)) (chars (if up then "++" else "--") ++ (w ++ x))
  | post {x up w} : IsVar x → Blank w → Says (.ex 10 (.incr Bool.false up x)) (x ++ (w ++ chars (if up then "++" else "--")))
  | not {p sp g s} : sp ∈ ["not", "!"] → Gap Bool.false g → (sp = "not" → g ≠ []) → Says (.ex 10 p) s →
      Says (.ex 10 (.not p)) (chars sp ++ (g ++ s))
  | bitnot {p g s} : Gap Bool.false g → Says (.ex 10 p) s → Says (.ex 10 (.bitnot p)) (chars "~" ++ (g ++ s))
  /-- `if (c): a. elsif (c): a. else: a.` -/
  | ifs {c a r w s w' s' s''} : Blank w → Says (.list c) s → Blank w' → Says (.block a) s' → Says (.tail r) s'' →
      Says (.ex 10 (.ifs c a r)) (chars "if" ++ (w ++ (s ++ (w' ++ s'))) ++ s'')
  | endif : Says (.tail .none) []
  | sameLine {r w s} : Blank w → w ≠ [] → Says (.line r) s → Says (.tail r) (w ++ s)
  | elsif {c a r w s w' s' s''} : Blank w → Says (.list c) s → Blank w' → Says (.block a) s' →
      Says (.tail r) s'' → Says (.line (.elsif c a r)) (chars "elsif" ++ (w ++ (s ++ (w' ++ s'))) ++ s'')
  | els {a w s} : Blank w → Says (.block a) s → Says (.line (.els a)) (chars "else" ++ (w ++ s))
  | while {c a w s w' s'} : Blank w → Says (.list c) s → Blank w' → Says (.block a) s' →
      Says (.ex 10 (.while c a)) (chars "while" ++ (w ++ (s ++ (w' ++ s'))))
  | loop {a w s} : Blank w → Says (.block a) s → Says (.ex 10 (.loop a)) (chars "loop" ++ (w ++ s))
  | brk : Says (.ex 10 .brk) (chars "break")
  | cont : Says (.ex 10 .cont) (chars "continue")
  | ret {a w s} : Blank w → Says (.list a) s → Says (.ex 10 (.ret a)) (chars "return" ++ (w ++ s))
  | retNil : Says (.ex 10 .retNil) (chars "return")
  /-- Functions `(x, y): body.` and calls `f (a, b)`. -/
  | fn {ps b s w s'} : Says (.params ps) s → Blank w → Says (.block b) s' → Says (.ex 10 (.fn ps b)) (s ++ (w ++ s'))
  | call {x as w s} : IsVar x → Blank w → Says (.args as) s → Says (.ex 10 (.call x as)) (x ++ (w ++ s))
  /-- Operators. -/
  | up {ℓ p s} : ℓ < 10 → Says (.ex (ℓ + 1) p) s → Says (.ex ℓ p) s
  | bin {o a b p s w sp g s'} : Combines o a b p → Says (.ex (Bin.level o) a) s → Blank w → sp ∈ Bin.spellings o →
      (isWordOp sp = Bool.true → w ≠ []) → Gap Bool.false g → g ≠ [] → Says (.ex (Bin.level o + 1) b) s' →
      Says (.ex (Bin.level o) p) (s ++ (w ++ (chars sp ++ (g ++ s'))))
  | assign {x e w g s} : IsName x → Blank w → Gap Bool.false g → Says (.ex 1 e) s →
      Says (.ex 1 (.assign x e)) (x ++ (w ++ (chars "=" ++ (g ++ s))))
  /-- Statements. An `elsif` or `else` may begin a line. -/
  | stmt {p s} : Says (.ex 0 p) s → Says (.stmt p) s
  | stmtIf {c a r r' s w sp s'} : Says (.ex 10 (.ifs c a r)) s → r.isOpen = Bool.true → Space w sp → Separator sp → Says (.lines r') s' →
      Says (.stmt (.ifs c a (r.append r'))) (s ++ (w ++ (sp ++ s')))
  | lines1 {r s} : Says (.line r) s → Says (.lines r) s
  | lines {r r' s w sp s'} : Says (.line r) s → r.isOpen = Bool.true → Space w sp → Separator sp → Says (.lines r') s' →
      Says (.lines (r.append r')) (s ++ (w ++ (sp ++ s')))
  | one {p s} : Says (.stmt p) s → Says (.stmts p) s
  | oneSep {p s w sp} : Says (.stmt p) s → Space w sp → Separator sp → Says (.stmts p) (s ++ (w ++ sp))
  | more {a b s w sp s'} : Says (.stmt a) s → Space w sp → Separator sp → Says (.stmts b) s' →
      Says (.stmts (.seq a b)) (s ++ (w ++ (sp ++ s')))
  | list0 {g} : Gap Bool.false g → Says (.list .nop) (chars "(" ++ (g ++ chars ")"))
  | list {g p s w} : Gap Bool.false g → Says (.stmts p) s → Space w (chars ")") →
      Says (.list p) (chars "(" ++ (g ++ (s ++ (w ++ chars ")"))))
  | block0 {g} : Gap Bool.false g → Says (.block .nop) (chars ":" ++ (g ++ chars "."))
  | block {g p s w} : Gap Bool.false g → Says (.stmts p) s → Space w (chars ".") →
      Says (.block p) (chars ":" ++ (g ++ (s ++ (w ++ chars "."))))
  /-- Arguments and parameters. -/
  | args0 {g} : Gap Bool.false g → Says (.args .nil) (chars "(" ++ (g ++ chars ")"))
  | args {g a as s w} : Gap Bool.false g → Says (.items (.cons a as)) s → Space w (chars ")") →
      Says (.args (.cons a as)) (chars "(" ++ (g ++ (s ++ (w ++ chars ")"))))
  | item {a s} : Says (.ex 0 a) s → Says (.items (.cons a .nil)) s
  | itemSep {a s w sp} : Says (.ex 0 a) s → Space w sp → Separator sp → Says (.items (.cons a .nil)) (s ++ (w ++ sp))
  | items {a as s w sp s'} : Says (.ex 0 a) s → Space w sp → Separator sp → Says (.items as) s' →
      Says (.items (.cons a as)) (s ++ (w ++ (sp ++ s')))
  | params0 {g} : Gap Bool.false g → Says (.params []) (chars "(" ++ (g ++ chars ")"))
  | params {g x xs s w} : Gap Bool.false g → Says (.names (x :: xs)) s → Space w (chars ")") →
      Says (.params (x :: xs)) (chars "(" ++ (g ++ (s ++ (w ++ chars ")"))))
  | name {x} : IsName x → Says (.names [x]) x
  | nameSep {x w sp} : IsName x → Space w sp → Separator sp → Says (.names [x]) (x ++ (w ++ sp))
  | names {x xs w sp s'} : IsName x → Space w sp → Separator sp → Says (.names xs) s' →
      Says (.names (x :: xs)) (x ++ (w ++ (sp ++ s')))

/-- A text of a program: white space, statements, white space. -/
inductive IsTextOf : List (BitVec 8) → Prog → Prop
  | empty {g} : Gap Bool.false g → IsTextOf g .nop
  | stmts {g p s w} : Gap Bool.false g → Says (.stmts p) s → Space w [] → IsTextOf (g ++ (s ++ w)) p

end Potion.Spec
