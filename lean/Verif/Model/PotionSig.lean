import Verif.Model.PotionActs
import Verif.Model.Sig
/-!
`potion_sig` (/repo/core/syntax.y 438-465): the text of a signature, as given to `PN_FUNC` (potion.h:228) for the functions written in C, made into the tuple
Model/Sig.lean works on. The parser is the generated one (Model/Greg.lean, Model/PotionGrammar.lean), started at rule `sig` (syntax.y:353).
-/
namespace Potion.Greg
open Potion.Peg (Tree Kind)

/-- The actions (Model/PotionActs.lean) while `P->pbuf` is `NULL` (syntax.y:450): `potion_asm_clear`, which a string begins with (syntax.y:271, 333), writes to
the address it is given (asm.c:20-24) and so ends the process; here, `failed` is set. -/
def sigAct (a : Nat) (t : List Byte) (env : Env) (y : Val) : Env × Val :=
  if a = 101 ∨ a = 114 then (env, (y.1, { y.2 with failed := true })) else runAct a t env y

/-- syntax.y:438-465 `potion_sig`; `fmt = none` is `NULL`. As in `potionParse`, the inner `none` is the end of the process (a syntax error, a string), the outer
one: not enough fuel, or an access outside the arrays. -/
def potionSig (fuel : Nat) (fmt : Option (List Byte)) (buf : Nat → Byte) (thunks : Nat → Thunk) (text : List Byte) (vals : Env) (yy : Tree) : Option (Option Tree) :=
  match fmt with
  | none => some (some (.imm PN_NIL))
  | some [] => some (some (.imm PN_FALSE))
  | some inp =>
    match parse potionGrammar R.sig (fun _ _ => true) sigAct fuel inp (init buf thunks text) vals (yy, { pbuf := [], source := .tup [], failed := false }) with
    | none => none
    | some (true, _, d) => if d.yy.2.failed then some none else some (some d.yy.2.source)
    | some (false, _, _) => some none

/-- What the queries of Model/Sig.lean see of an element of the tuple: `PN_IS_STR`, `PN_IS_INT`, `PN_INT`. -/
def itemOf : Tree → Sig.Item
  | .str s => .str s
  | .imm w => if w.getLsbD 0 then .num (pnInt w) else .other w
  | _ => .other 0

end Potion.Greg
