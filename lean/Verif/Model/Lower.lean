import Verif.Model.Compile
import Verif.Model.Syntax
/-!
The trees the parser builds (Model/Peg.lean `Tree`: ast.h `struct PNSource`) as the trees the compiler model works on
(Model/Compile.lean `Src`). In the code both are the same `struct PNSource`; here the shapes the compiler model covers are
recognised, as `potion_source_asmb` (compile.c:320-930) does by the `part` and the children of a node, and all others are
`none`.
-/
namespace Potion.Compile
open Potion Potion.Vm Potion.Peg

/-- compile.c:558-579: the operators compiled to one instruction. -/
def binOf : Kind → Option BinOp
  | .plus => some .plus | .minus => some .minus | .times => some .times | .div => some .div | .rem => some .rem
  | .bitl => some .bitl | .bitr => some .bitr | .cmp => some .cmp | .eq => some .eq | .neq => some .neq
  | .lt => some .lt | .lte => some .lte | .gt => some .gt | .gte => some .gte
  | _ => none

/-- An absent child (`PN_NIL`). -/
def absent : Tree → Bool
  | .imm w => w == PN_NIL
  | _ => false

/-- compile.c:600-772: a message with its list, as statements and as arguments, and its block. -/
def messageOf (x : Name) (args cargs body : Option Src) (noArgs noBody : Bool) : Option Src :=
  if x = bytesOf "if" then do return .ifm (← args) (← body)
  else if x = bytesOf "elsif" then do return .elsifm (← args) (← body)
  else if x = bytesOf "else" then if noArgs then do return .elsem (← body) else none
  else if x = bytesOf "while" then do return .whilem (← args) (← body)
  else if x = bytesOf "loop" then if noArgs then do return .loopm (← body) else none
  else if !noBody then none
  else if x = bytesOf "return" then if noArgs then some .ret0 else do return .retv (← args)
  else if !noArgs then if x ∈ keywords then none else do return .call x (← cargs)      -- 761-772, 862-874
  else if x = bytesOf "break" then some .brk
  else if x = bytesOf "continue" then some .cont
  else if x = bytesOf "self" then some .self
  else if x ∈ keywords then none
  else some (.msg x)

/-- compile.c:918-926, 949-963 `potion_sig_compile`: parameters without types and defaults. -/
def namesOf : List Tree → Option (List Name)
  | [] => some []
  | .node .expr (.tup [.node .msg (.str x) b c]) b' c' :: l =>
    if absent b && absent c && absent b' && absent c' then do return x :: (← namesOf l) else none
  | _ => none
def paramsOf : Tree → Option (List Name)
  | .node .list (.imm w) b c => if w == PN_NIL && absent b && absent c then some [] else none
  | .node .list (.tup l) b c => if absent b && absent c then namesOf l else none
  | _ => none

mutual
/-- A statement or an operand. -/
def sourceOf : Tree → Option Src
  | .node .expr (.tup [.node .list t b c]) b' c' =>                        -- compile.c:187-197
    if absent b && absent c && absent b' && absent c' then do return .paren (← stmtsOf t) else none
  | .node .expr (.tup (a :: l)) b c => if absent b && absent c then do return .chain (← messageSrc a) (← chainOf l) else none   -- 337-345
  | .node .assign (.node .expr (.tup [.node .msg (.str x) b c]) b' c') e d =>    -- 432-530
    if absent b && absent c && absent b' && absent c' && absent d then do return .assign x (← sourceOf e) else none
  | .node .and a b c => if absent c then do return .and (← sourceOf a) (← sourceOf b) else none   -- 590-598
  | .node .or a b c => if absent c then do return .or (← sourceOf a) (← sourceOf b) else none
  | .node k a b c =>                                                       -- 558-583
    if absent c then
      match binOf k with
      | some o => do return .bin o (← sourceOf a) (← sourceOf b)
      | none => none
    else none
  | _ => none
/-- An element of an AST_EXPR. -/
def messageSrc : Tree → Option Src
  | .node .value (.imm w) b c => if absent b && absent c then some (.value w) else none    -- 351-355
  | .node .not a b c => if absent b && absent c then do return .not (← sourceOf a) else none      -- 585-588
  | .node .wavy a b c => if absent b && absent c then do return .wavy (← sourceOf a) else none
  | .node .inc (.node .msg (.str x) b c) (.imm n) d =>                                     -- 532-556
    if absent b && absent c && absent d then some (.inc x n) else none
  | .node .msg (.str x) v b => messageOf x (listSrc v) (argsSrc v) (blockSrc b) (absent v) (absent b)   -- 600-772
  | .node .proto t b c => if absent c then do return .fn (← paramsOf t) (← blockSrc b) else none   -- 347-349, 198-211
  | _ => none
/-- The arguments of a message. -/
def listSrc : Tree → Option Src
  | .node .list t b c => if absent b && absent c then stmtsOf t else none                  -- 269-317
  | _ => none
/-- The same, of a call. -/
def argsSrc : Tree → Option Src
  | .node .list (.imm w) b c => if w == PN_NIL && absent b && absent c then some .anil else none
  | .node .list (.tup l) b c => if absent b && absent c then argsOf l else none
  | _ => none
def argsOf : List Tree → Option Src
  | [] => some .anil
  | a :: l => do return .acons (← sourceOf a) (← argsOf l)
/-- The block of a message. -/
def blockSrc : Tree → Option Src
  | .node .block t b c => if absent b && absent c then stmtsOf t else none                 -- 326-335
  | _ => none
/-- The rest of an AST_EXPR. -/
def chainOf : List Tree → Option Src
  | [] => some .skip
  | a :: l => do return .chain (← messageSrc a) (← chainOf l)
/-- A list of statements. -/
def stmtsOf : Tree → Option Src
  | .imm w => if w = PN_NIL then some .skip else none
  | .tup l => seqOf l
  | _ => none
def seqOf : List Tree → Option Src
  | [] => some .skip
  | [a] => sourceOf a
  | a :: l => do return .seq (← sourceOf a) (← seqOf l)
end

/-- The program of a parsed text. -/
def programOf : Tree → Option Src
  | .node .code t b c => if absent b && absent c then stmtsOf t else none
  | _ => none

/-- syntax.y:390-421, compile.c:1043-1077: parse and compile a text (`fuel` bounds the nesting of the parser). -/
def compileText (fuel : Nat) (text : List (BitVec 8)) : Option Proto := do
  match ← parse fuel text with
  | some t => compile (← programOf t)
  | none => none

end Potion.Compile
