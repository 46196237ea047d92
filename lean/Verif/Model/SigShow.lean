import Verif.Model.Show
import Verif.Model.Sig
/-!
Model of the text of a signature (/repo/core/compile.c 60-94) and of a function (/repo/core/objmodel.c 52-60). The elements of the tuple are those of
Model/Sig.lean; buffers as in Model/Show.lean.
-/
namespace Potion.Show
open Potion Potion.Bytes Potion.Spec Potion.Dec
open Potion.Sig (Item)

/-- string.c:384-386 `potion_bytes_obj_string`: the text of an element. Simplified: an element that is neither string nor integer is nil, true or false. -/
def elemText : Item → Option (List Byte)
  | .str s => some s
  | .num i => string (fun _ => 0) (.int i)
  | .other w => if w = PN_NIL then some (chars "nil") else if w = PN_TRUE then some (boolString true) else if w = PN_FALSE then some (boolString false) else none

/-- compile.c:71: the value of an `int` made of a `long`. -/
def cInt (i : Int) : Int := Int.bmod i (2 ^ 32)

/-- compile.c:67-92 `nextdef` and `comma` as at the start of an iteration. -/
def sigLoop (junk : Nat → Byte) : List Item → (nextdef : Bool) → (comma : Nat) → Option Buf → Option Buf
  | [], _, _, out => out
  | .num i :: l, nextdef, _, out =>
    let c := cInt i
    if c = 46 then sigLoop junk l nextdef 0 (lit junk out ".")
    else if c = 124 then sigLoop junk l nextdef 0 (lit junk out "|")
    else if c = 58 then sigLoop junk l true 0 (lit junk out ":")
    else if nextdef then sigLoop junk l false 1 (objOut junk (lit junk out "=") (elemText (.num i)))
    else sigLoop junk l false 1 (match out with
      | some b => printf b junk (chars "=" ++ [BitVec.ofInt 8 c])
      | none => none)
  | v :: l, nextdef, comma, out =>
    let out := if comma > 0 then lit junk out "," else out
    let out := if nextdef then lit junk out "=" else out
    sigLoop junk l false (comma + 1) (objOut junk out (elemText v))

/-- compile.c:60-94 `potion_sig_string` of a tuple (`some`), or of something else. -/
def sigString (junk : Nat → Byte) (sig : Option (List Item)) : Option (List Byte) :=
  match sig with
  | some l => (sigLoop junk l false 0 (byteStr2 junk [])).map strB
  | none => (byteStr2 junk []).map strB

/-- objmodel.c:54-55 -/
def addName (junk : Nat → Byte) (name : Option (List Byte)) (b : Buf) : Option Buf :=
  match name with
  | some n => printf b junk (chars " " ++ n)
  | none => some b
/-- objmodel.c:52-60 `potion_closure_string` -/
def closureString (junk : Nat → Byte) (name : Option (List Byte)) (sig : Option (List Item)) : Option (List Byte) :=
  let out := byteStr2 junk (chars "function")
  let out := match out with
    | some b => addName junk name b
    | none => none
  let out := objOut junk (lit junk out "(") (sigString junk sig)
  (lit junk out ")").map strB

end Potion.Show
