import Verif.Model.Compile
import Verif.Spec.Lang
/-!
The syntax trees the parser (/repo/core/syntax.y) builds for a program of `Spec/Lang.lean`; each case cites the grammar
action that builds the node. (The parser itself is modelled in Peg.lean, Syntax.lean and Lower.lean; C53 proves that it
builds these trees.)
-/
namespace Potion.Compile
open Potion Potion.Vm Potion.Spec

/-- syntax.y:138-147: every atom is wrapped in a one-element AST_EXPR. -/
def wrap (a : Src) : Src := .chain a .skip

/-- syntax.y:107-133: operator nodes. -/
def opNode : Op → BinOp
  | .plus => .plus | .minus => .minus | .times => .times | .over => .div | .mod => .rem | .shl => .bitl | .shr => .bitr
def relNode : Rel → BinOp
  | .lt => .lt | .le => .lte | .gt => .gt | .ge => .gte

mutual
/-- The tree of a program. -/
def toSrc : Prog → Src
  | .int i => wrap (.value (pnNum i))                              -- syntax.y:204-208
  | .bool b => wrap (.value (pnBool b))                            -- 202-203
  | .nil => wrap (.value PN_NIL)                                   -- 201
  | .var x => wrap (.msg x)                                        -- 160
  | .assign x e => .assign x (toSrc e)                             -- 74
  | .incr pre up x =>                                              -- 142-145
    let n := pnNum (if up then 1 else -1)
    wrap (.inc x (if pre then n ^^^ 1#64 else n))
  | .arith op a b => .bin (opNode op) (toSrc a) (toSrc b)          -- 117-130
  | .rel r a b => .bin (relNode r) (toSrc a) (toSrc b)             -- 98-102
  | .eq neg a b => .bin (if neg then .neq else .eq) (toSrc a) (toSrc b)   -- 94-95
  | .not a => wrap (.not (toSrc a))                                -- 138
  | .bitnot a => wrap (.wavy (toSrc a))                            -- 139
  | .and a b => .and (toSrc a) (toSrc b)                           -- 70
  | .or a b => .or (toSrc a) (toSrc b)                             -- 69
  | .group a => .paren (toSrc a)                                   -- 181
  | .nop => .skip                                                  -- 66
  | .seq a b => .seq (toSrc a) (toSrc b)                           -- 63-65
  | .ifs c a r => .chain (.ifm (toSrc c) (toSrc a)) (toTail r)     -- 151-153
  | .while c a => wrap (.whilem (toSrc c) (toSrc a))
  | .loop a => wrap (.loopm (toSrc a))
  | .brk => wrap .brk
  | .cont => wrap .cont
  | .ret a => wrap (.retv (toSrc a))
  | .retNil => wrap .ret0
  | .fn ps b => wrap (.fn ps (toSrc b))                            -- 177
  | .call x as => wrap (.call x (toArgs as))                       -- 146, 185
/-- The messages after an `if`. -/
def toTail : Else → Src
  | .none => .skip
  | .elsif c a r => .chain (.elsifm (toSrc c) (toSrc a)) (toTail r)
  | .els a => wrap (.elsem (toSrc a))
/-- The argument list of a call. -/
def toArgs : Args → Src
  | .nil => .anil
  | .cons a r => .acons (toSrc a) (toArgs r)
end

end Potion.Compile
