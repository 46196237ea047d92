import Verif.Spec.Text
import Verif.Proof.Decimal
/-!
One text for each program that is grouped as its operators demand. (`natDigits n` are the decimal digits of `n`.)
-/
namespace Potion.Spec
open Potion.Dec

/-- The level of the outermost operator. -/
def Prog.level : Prog → Nat
  | .arith op _ _ => (Op.bin op).level
  | .rel r _ _ => (Rel.bin r).level
  | .eq false _ _ => Bin.eq.level
  | .eq true _ _ => Bin.neq.level
  | .and .. => Bin.and.level
  | .or .. => Bin.or.level
  | .assign .. => 1
  | _ => 10

def isNop : Prog → Bool
  | .nop => true
  | _ => false

/-- A name that is no keyword; a variable. -/
def nameOk (x : Ident) : Bool :=
  (match x with
    | c :: r => isLetter c && r.all fun d => isLetter d || isDigitChar d
    | [] => false) &&
  (["nil", "true", "false", "and", "or", "not"].all fun s => x != chars s) && !(chars "extern").isPrefixOf x
def varOk (x : Ident) : Bool := nameOk x && reserved.all fun s => x != chars s

mutual
/-- Operands stand where the table of precedences has them; `st`: statements are allowed. -/
def grouped : (st : Bool) → Prog → Bool
  | _, .int i => decide (0 ≤ i)
  | _, .bool _ | _, .nil | _, .brk | _, .cont | _, .retNil => true
  | _, .var x | _, .incr _ _ x => varOk x
  | _, .assign x e => nameOk x && grouped false e && decide (1 ≤ e.level)
  | _, .arith op a b => grouped false a && grouped false b && decide ((Op.bin op).level ≤ a.level) && decide ((Op.bin op).level < b.level)
  | _, .rel r a b => grouped false a && grouped false b && decide ((Rel.bin r).level ≤ a.level) && decide ((Rel.bin r).level < b.level)
  | _, .eq _ a b => grouped false a && grouped false b && decide (2 ≤ a.level) && decide (2 < b.level)
  | _, .and a b | _, .or a b => grouped false a && grouped false b && decide (0 < b.level)
  | _, .not a | _, .bitnot a => grouped false a && decide (a.level = 10)
  | _, .group a | _, .loop a | _, .ret a => grouped true a
  | st, .nop => st
  | st, .seq a b => st && grouped false a && grouped true b && !isNop b
  | _, .while c a => grouped true c && grouped true a
  | _, .ifs c a r => grouped true c && grouped true a && groupedTail r
  | _, .fn ps b => ps.all nameOk && grouped true b
  | _, .call x as => varOk x && groupedArgs as
def groupedTail : Else → Bool
  | .none => true
  | .elsif c a r => grouped true c && grouped true a && groupedTail r
  | .els a => grouped true a
def groupedArgs : Args → Bool
  | .nil => true
  | .cons a r => grouped false a && groupedArgs r
end

def between (a : List (BitVec 8)) (op : String) (b : List (BitVec 8)) : List (BitVec 8) :=
  a ++ (chars " " ++ (chars op ++ (chars " " ++ b)))
/-- `(a)` -/
def inList (a : List (BitVec 8)) : List (BitVec 8) := chars "(" ++ (a ++ chars ")")
/-- `:a .` -/
def inBlock (a : List (BitVec 8)) : List (BitVec 8) := chars ":" ++ (a ++ (chars " " ++ chars "."))
def spelling (o : Bin) : String := o.spellings.headD ""
/-- `x, y` -/
def commas : List Ident → List (BitVec 8)
  | [] => []
  | [x] => x
  | x :: r => x ++ ([] ++ (chars ", " ++ commas r))

mutual
def render : Prog → List (BitVec 8)
  | .int i => (natDigits (i.toNat + 1) i.toNat).map digitChar
  | .bool true => chars "true"
  | .bool false => chars "false"
  | .nil => chars "nil"
  | .var x => x
  | .assign x e => between x "=" (render e)
  | .incr true up x => chars (if up then "++" else "--") ++ ([] ++ x)
  | .incr false up x => x ++ ([] ++ chars (if up then "++" else "--"))
  | .arith op a b => between (render a) (spelling (Op.bin op)) (render b)
  | .rel r a b => between (render a) (spelling (Rel.bin r)) (render b)
  | .eq false a b => between (render a) "==" (render b)
  | .eq true a b => between (render a) "!=" (render b)
  | .and a b => between (render a) "and" (render b)
  | .or a b => between (render a) "or" (render b)
  | .not a => chars "not" ++ (chars " " ++ render a)
  | .bitnot a => chars "~" ++ ([] ++ render a)
  | .group a => inList (render a)
  | .nop => []
  | .seq a b => render a ++ ([] ++ (chars ", " ++ render b))
  | .ifs c a r => chars "if" ++ (chars " " ++ (inList (render c) ++ ([] ++ inBlock (render a)))) ++ renderTail r
  | .while c a => chars "while" ++ (chars " " ++ (inList (render c) ++ ([] ++ inBlock (render a))))
  | .loop a => chars "loop" ++ ([] ++ inBlock (render a))
  | .brk => chars "break"
  | .cont => chars "continue"
  | .ret a => chars "return" ++ (chars " " ++ inList (render a))
  | .retNil => chars "return"
  | .fn ps b => inList (commas ps) ++ ([] ++ inBlock (render b))
  | .call x as => x ++ ([] ++ inList (renderArgs as))
def renderTail : Else → List (BitVec 8)
  | .none => []
  | .elsif c a r => chars " " ++ (chars "elsif" ++ (chars " " ++ (inList (render c) ++ ([] ++ inBlock (render a)))) ++ renderTail r)
  | .els a => chars " " ++ (chars "else" ++ ([] ++ inBlock (render a)))
def renderArgs : Args → List (BitVec 8)
  | .nil => []
  | .cons a .nil => render a
  | .cons a r => render a ++ ([] ++ (chars ", " ++ renderArgs r))
end

end Potion.Spec
