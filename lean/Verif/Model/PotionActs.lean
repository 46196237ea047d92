import Verif.Model.Syntax
import Verif.Model.PotionGrammar
/-!
The actions of potion's grammar (/repo/core/syntax.y 61-379) and `potion_parse` (381-413), on top of the generated parser
(Model/Greg.lean, Model/PotionGrammar.lean). Actions and variables have the numbers they have there.

The values of the parser are trees (Model/Peg.lean); the part of `P` the actions use is carried along with `$$`.
Simplifications: no line numbers and file names; tuples and strings are values
(`PN_PUSH` does not change the tuple it is given, which matters for `P->source` only, see `C67_refuted_extern`); after
`YY_ERROR`, which ends the process, the run goes on with `failed` set.
-/
namespace Potion.Greg
open Potion.Peg (Tree Kind)

/-- What actions use of `P` and `G`: `P->pbuf` (internal.h), `P->source`; whether `YY_ERROR` was called. -/
structure Glob where
  pbuf : List Byte
  source : Tree
  failed : Bool

/-- `$$` or a variable; of the second part, that of `$$` counts. -/
abbrev Val := Tree × Glob
abbrev Env := Nat → Val

/-- `$$ = t` -/
def ret (t : Tree) (env : Env) (y : Val) : Env × Val := (env, (t, y.2))
/-- `v = t`, `v` being variable number `i` -/
def put (i : Nat) (t : Tree) (env : Env) (y : Val) : Env × Val := (fun j => if j = i then (t, y.2) else env j, y)
/-- `P->pbuf = potion_asm_write(P, P->pbuf, s, len)`: asm.c:57-64. -/
def write (s : List Byte) (env : Env) (y : Val) : Env × Val := (env, (y.1, { y.2 with pbuf := y.2.pbuf ++ s }))
/-- `SRC_TPL1`, `SRC_TPL2`, `SRC_TPL3` (syntax.y:55-57); `PN_PUSH` of what is not a tuple (table.c `potion_tuple_push`) makes no sense. -/
def srcPush (l : List Tree) (env : Env) (y : Val) : Env × Val :=
  (env, (y.1, { y.2 with source := match y.2.source with
    | .tup s => .tup (s ++ l)
    | v => v }))
/-- `PN_AST`, `PN_AST2`/`PN_OP`, `PN_AST3` (syntax.y:19-22). -/
def ast1 (k : Kind) (a : Tree) : Tree := .node k a .nil .nil
def ast2 (k : Kind) (a b : Tree) : Tree := .node k a b .nil
/-- `PN_TUP(x)`, `PN_PUSH(t, x)` -/
def tup1 (x : Tree) : Tree := .tup [x]
def push (t x : Tree) : Tree := match t with
  | .tup l => .tup (l ++ [x])
  | v => v
/-- `PN_SRC(n)->a[1] = v; PN_SRC(n)->a[2] = b` -/
def setArgs (n v b : Tree) : Tree := match n with
  | .node k a _ _ => .node k a v b
  | v => v
/-- `PN_S(d, 0)` -/
def part0 (d : Tree) : Tree := match d with
  | .node _ a _ _ => a
  | v => v
/-- `PN_NUM(yytext[0])` -/
def firstChar (t : List Byte) : Tree := match t with
  | b :: _ => .imm (pnNum b.toNat)
  | [] => .imm (pnNum 0)
/-- syntax.y:281-327: write what an escape stands for, or `YY_ERROR`. -/
def escWrite (o : Option (List Byte)) (env : Env) (y : Val) : Env × Val := match o with
  | some s => write s env y
  | none => (env, (y.1, { y.2 with failed := true }))
/-- syntax.y:43-44 -/
def YY_TINT : Tree := .imm 3#64
def YY_TDBL : Tree := .imm 13#64
/-- syntax.y:198-203 -/
def decValue (y : Tree) (t : List Byte) : Tree := match y with
  | .imm w => if w = 3#64 then .imm (Dec.decLiteral t) else .dbl t
  | _ => .dbl t

/-- The action number `a`, given `yytext`, the variables of its rule, `$$`. -/
def runAct (a : Nat) (t : List Byte) (env : Env) (y : Val) : Env × Val :=
  match a with
  -- 61 potion: s
  | 0 => (env, (ast1 .code (env 0).1, { y.2 with source := ast1 .code (env 0).1 }))
  -- 63-66 statements: s2 s1
  | 1 => ret (tup1 (env 1).1) (put 1 (tup1 (env 1).1) env y).1 y
  | 2 => ret (push (env 1).1 (env 0).1) (put 1 (push (env 1).1 (env 0).1) env y).1 y
  | 3 => ret .nil env y
  -- 68-71 stmt: x s
  | 4 => put 1 (ast2 .or (env 1).1 (env 0).1) env y
  | 5 => put 1 (ast2 .and (env 1).1 (env 0).1) env y
  | 6 => ret (env 1).1 env y
  -- 73-89 sets: s e
  | 7 => put 1 (ast2 .assign (env 1).1 (env 0).1) env y
  | 8 => put 1 (ast2 .assign (env 1).1 (env 0).1) env y
  | 9 => put 1 (ast2 .assign (env 1).1 (ast2 .or (env 1).1 (env 0).1)) env y
  | 10 => put 1 (ast2 .assign (env 1).1 (ast2 .and (env 1).1 (env 0).1)) env y
  | 11 => put 1 (ast2 .assign (env 1).1 (ast2 .pipe (env 1).1 (env 0).1)) env y
  | 12 => put 1 (ast2 .assign (env 1).1 (ast2 .caret (env 1).1 (env 0).1)) env y
  | 13 => put 1 (ast2 .assign (env 1).1 (ast2 .amp (env 1).1 (env 0).1)) env y
  | 14 => put 1 (ast2 .assign (env 1).1 (ast2 .bitl (env 1).1 (env 0).1)) env y
  | 15 => put 1 (ast2 .assign (env 1).1 (ast2 .bitr (env 1).1 (env 0).1)) env y
  | 16 => put 1 (ast2 .assign (env 1).1 (ast2 .plus (env 1).1 (env 0).1)) env y
  | 17 => put 1 (ast2 .assign (env 1).1 (ast2 .minus (env 1).1 (env 0).1)) env y
  | 18 => put 1 (ast2 .assign (env 1).1 (ast2 .times (env 1).1 (env 0).1)) env y
  | 19 => put 1 (ast2 .assign (env 1).1 (ast2 .div (env 1).1 (env 0).1)) env y
  | 20 => put 1 (ast2 .assign (env 1).1 (ast2 .rem (env 1).1 (env 0).1)) env y
  | 21 => put 1 (ast2 .assign (env 1).1 (ast2 .pow (env 1).1 (env 0).1)) env y
  | 22 => ret (env 1).1 env y
  -- 91-95 eqs: x c
  | 23 => put 1 (ast2 .cmp (env 1).1 (env 0).1) env y
  | 24 => put 1 (ast2 .eq (env 1).1 (env 0).1) env y
  | 25 => put 1 (ast2 .neq (env 1).1 (env 0).1) env y
  | 26 => ret (env 1).1 env y
  -- 97-102 cmps: x o
  | 27 => put 1 (ast2 .gte (env 1).1 (env 0).1) env y
  | 28 => put 1 (ast2 .gt (env 1).1 (env 0).1) env y
  | 29 => put 1 (ast2 .lte (env 1).1 (env 0).1) env y
  | 30 => put 1 (ast2 .lt (env 1).1 (env 0).1) env y
  | 31 => ret (env 1).1 env y
  -- 104-107 bitors: x a
  | 32 => put 1 (ast2 .pipe (env 1).1 (env 0).1) env y
  | 33 => put 1 (ast2 .caret (env 1).1 (env 0).1) env y
  | 34 => ret (env 1).1 env y
  -- 109-111 bitand: x b
  | 35 => put 1 (ast2 .amp (env 1).1 (env 0).1) env y
  | 36 => ret (env 1).1 env y
  -- 113-116 bitshift: x s
  | 37 => put 1 (ast2 .bitl (env 1).1 (env 0).1) env y
  | 38 => put 1 (ast2 .bitr (env 1).1 (env 0).1) env y
  | 39 => ret (env 1).1 env y
  -- 118-121 sum: x p
  | 40 => put 1 (ast2 .plus (env 1).1 (env 0).1) env y
  | 41 => put 1 (ast2 .minus (env 1).1 (env 0).1) env y
  | 42 => ret (env 1).1 env y
  -- 123-127 product: x p
  | 43 => put 1 (ast2 .times (env 1).1 (env 0).1) env y
  | 44 => put 1 (ast2 .div (env 1).1 (env 0).1) env y
  | 45 => put 1 (ast2 .rem (env 1).1 (env 0).1) env y
  | 46 => ret (env 1).1 env y
  -- 129-131 power: x e
  | 47 => put 1 (ast2 .pow (env 1).1 (env 0).1) env y
  | 48 => ret (env 1).1 env y
  -- 133-142 expr: c a
  | 49 => put 1 (ast1 .not (env 1).1) env y
  | 50 => put 1 (ast1 .wavy (env 1).1) env y
  | 51 => put 1 (ast2 .minus (ast1 .value (.imm (pnNum 0))) (env 1).1) env y
  | 52 => put 1 (ast2 .plus (ast1 .value (.imm (pnNum 0))) (env 1).1) env y
  | 53 => put 1 (ast2 .inc (env 1).1 (.imm (pnNum (-1) ^^^ 1#64))) env y
  | 54 => put 1 (ast2 .inc (env 1).1 (.imm (pnNum 1 ^^^ 1#64))) env y
  | 55 => put 1 (ast2 .inc (env 1).1 (.imm (pnNum 1))) env y
  | 56 => put 1 (ast2 .inc (env 1).1 (.imm (pnNum (-1)))) env y
  | 57 => put 1 (tup1 (env 1).1) env y
  | 58 => put 1 (push (env 1).1 (env 0).1) env y
  | 59 => ret (ast1 .expr (env 1).1) env y
  -- 146-148 call: b v n
  | 60 => put 0 .nil (put 1 .nil env y).1 y
  | 61 => put 0 .nil (put 2 (ast1 .msg .nil) env y).1 y
  | 62 => ret (setArgs (env 2).1 (env 1).1 (env 0).1) (put 2 (setArgs (env 2).1 (env 1).1 (env 0).1) env y).1 y
  -- 150-153 extern: l n
  | 63 => (env, (y.1, { y.2 with source := .tup [] }))
  | 64 => ret (ast2 .msg Peg.externName (push (tup1 (env 1).1) y.2.source)) env y
  | 65 => ret (ast2 .msg Peg.externName (tup1 (env 1).1)) env y
  -- 155-160 name: t m p
  | 66 => ret (ast1 .path (env 2).1) env y
  | 67 => ret (ast1 .query (env 1).1) env y
  | 68 => ret (ast1 .pathq (env 2).1) env y
  | 69 => ret (ast1 .value (env 0).1) env y
  | 70 => ret (ast1 .msg (env 1).1) env y
  -- 162-165 lick-items: i2 i1
  | 71 => ret (tup1 (env 1).1) (put 1 (tup1 (env 1).1) env y).1 y
  | 72 => ret (push (env 1).1 (env 0).1) (put 1 (push (env 1).1 (env 0).1) env y).1 y
  | 73 => ret .nil env y
  -- 167-172 lick-item: v t m
  | 74 => ret (.node .lick (env 2).1 (env 0).1 (env 1).1) env y
  | 75 => ret (.node .lick (env 2).1 .nil (env 1).1) env y
  | 76 => ret (.node .lick (env 2).1 (env 0).1 (env 1).1) env y
  | 77 => ret (ast2 .lick (env 2).1 (env 0).1) env y
  | 78 => ret (ast1 .lick (env 2).1) env y
  | 79 => ret (ast1 .lick (env 0).1) env y
  -- 174-182 loose: v; closure: b t; list, block: s; lick: i; group: s; tuple: l m
  | 80 => ret (ast1 .value (env 0).1) env y
  | 81 => ret (ast2 .proto (env 1).1 (env 0).1) env y
  | 82 => ret (ast1 .list (env 0).1) env y
  | 83 => ret (ast1 .block (env 0).1) env y
  | 84 => ret (ast1 .list (env 0).1) env y
  | 85 => ret (ast1 .expr (env 0).1) env y
  | 86 => ret (ast2 .lick (ast1 .msg (env 1).1) (env 0).1) env y
  -- 184-187 path, msg
  | 87 => ret (.str t) env y
  | 88 => ret (.str t) env y
  | 89 => ret (.str t) env y
  -- 189-190 value: t i
  | 90 => ret (ast1 .value (env 1).1) env y
  | 91 => ret (ast1 .value (env 0).1) env y
  -- 194-203 immed
  | 92 => ret .nil env y
  | 93 => ret (.imm PN_TRUE) env y
  | 94 => ret (.imm PN_FALSE) env y
  | 95 => ret (.imm (Dec.hexLiteral t)) env y
  | 96 => ret (decValue y.1 t) env y
  -- 265-267 dec
  | 97 => ret YY_TINT env y
  | 98 => ret YY_TDBL env y
  | 99 => ret YY_TDBL env y
  -- 270-273 c1, str1
  | 100 => write t env y
  | 101 => (env, (y.1, { y.2 with pbuf := [] }))
  | 102 => write (Peg.ascii "'") env y
  | 103 => ret (.str y.2.pbuf) env y
  -- 276-328 escapes
  | 104 => write [10#8] env y
  | 105 => write [8#8] env y
  | 106 => write [12#8] env y
  | 107 => write [13#8] env y
  | 108 => write [9#8] env y
  | 109 => escWrite (Str.escu (Dec.atoi t 16).toNat) env y
  | 110 => escWrite (Str.escU (Dec.atoi t 16).toNat) env y
  | 111 => write t env y
  -- 331-335 e2, c2, str2
  | 112 => write [34#8] env y
  | 113 => write t env y
  | 114 => (env, (y.1, { y.2 with pbuf := [] }))
  | 115 => ret (.str y.2.pbuf) env y
  -- 342 unquoted
  | 116 => ret (.str t) env y
  -- 349-350 end-of-line: `++G->lineno; P->line = ...`
  | 117 => (env, y)
  -- 359-363 arg-name, arg-modifier, arg-type
  | 118 => ret (.str t) env y
  | 119 => ret (firstChar t) env y
  | 120 => ret (firstChar t) env y
  -- 364-374 arg: d t n m
  | 121 => srcPush [(env 2).1, (env 1).1, (env 3).1] env y
  | 122 => srcPush [(env 2).1, .imm 0#64, (env 3).1] env y
  | 123 => srcPush [(env 2).1, (env 1).1] env y
  | 124 => srcPush [(env 2).1, .imm (pnNum 58), part0 (env 0).1] env y
  | 125 => srcPush [(env 2).1] env y
  -- 376-378 optional, arg-rest, arg-sep
  | 126 => srcPush [.imm (pnNum 124)] env y
  | 127 => srcPush [.imm (pnNum 46)] env y
  | 128 => srcPush [.imm (pnNum 46)] env y
  | _ => (env, y)

/-- syntax.y:381-413 `potion_parse`: `P->pbuf` is empty, `P->source` nil at first; the outcome is the source, if the parser succeeded and it is a `CODE`
node. The inner `none`: a syntax error or a refused escape, which ends the process (tools/compile.c:661-681). The contents of the fresh buffer, thunks,
text and values are arbitrary. The outer `none`: not enough fuel, or an access outside the arrays. -/
def potionParse (fuel : Nat) (inp : List Byte) (buf : Nat → Byte) (thunks : Nat → Thunk) (text : List Byte) (vals : Env) (yy : Tree) : Option (Option Tree) :=
  match parse potionGrammar R.potion (fun _ _ => true) runAct fuel inp (init buf thunks text) vals (yy, { pbuf := [], source := .nil, failed := false }) with
  | none => none
  | some (true, _, d) => if d.yy.2.failed then some none else match d.yy.2.source with
    | .node .code a b c => some (some (.node .code a b c))
    | _ => some none
  | some (false, _, _) => some none

end Potion.Greg
