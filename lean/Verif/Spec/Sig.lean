import Verif.Model.Sig
/-!
Declared signatures, `(a, b=N | c:=1, d.)`, and the tuples they are stored as.
-/
namespace Potion.Sig

/-- syntax.y:355-377: the forms of a parameter. -/
inductive Kind
  | plain                                -- x
  | typed (c : Int)                      -- x=N
  | deflt (v : Item)                     -- x:=value
  | modified (t : Option Int) (m : Int)  -- -x  \x  *x  -x=N

/-- A declaration is a list of parameters, bars and dots. -/
inductive Decl
  | param (name : List (BitVec 8)) (k : Kind)
  | bar
  | dot

/-- syntax.y:361-363: type and modifier letters (`arg-type`, `arg-modifier`) are neither `:` nor `|`. -/
def Letter (c : Int) : Prop := c ≠ 58 ∧ c ≠ 124
def Decl.Ok : Decl → Prop
  | .param _ (.typed c) => Letter c
  | .param _ (.modified t m) => (∀ c, t = some c → Letter c) ∧ Letter m
  | _ => True

/-- The default value 58, the code of `:`, is not used. -/
def Decl.Not58 : Decl → Prop
  | .param _ (.deflt v) => v ≠ .num 58
  | _ => True

/-- syntax.y:364-378, compile.c:960-1034: the elements stored for a declaration. -/
def Decl.items : Decl → List Item
  | .param n .plain => [.str n]
  | .param n (.typed c) => [.str n, .num c]
  | .param n (.deflt v) => [.str n, .num 58, v]
  | .param n (.modified (some t) m) => [.str n, .num t, .num m]
  | .param n (.modified none m) => [.str n, .other 0, .num m]
  | .bar => [.num 124]
  | .dot => [.num 46]

def encode (ds : List Decl) : List Item := ds.flatMap Decl.items

/-- The parameters, in order. -/
def params : List Decl → List (List (BitVec 8) × Kind)
  | [] => []
  | .param n k :: ds => (n, k) :: params ds
  | _ :: ds => params ds

/-- The mandatory parameters: those before the first bar and the first default value. -/
def mandatory : List Decl → List (List (BitVec 8) × Kind)
  | [] => []
  | .bar :: _ => []
  | .param _ (.deflt _) :: _ => []
  | .param n k :: ds => (n, k) :: mandatory ds
  | .dot :: ds => mandatory ds

end Potion.Sig
