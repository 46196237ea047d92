import Verif.Model.Word
import Verif.Model.Number
/-!
Model of the `cmp` methods of nil, booleans, integers and lists (/repo/core/primitive.c 22-61, /repo/core/number.c
396-407, /repo/core/table.c 882-915). Strings, doubles and user classes are not modelled: `none` stands for a dispatch
outside this fragment (or `potion_fatal`).
-/
namespace Potion

/-- Values that can be compared. -/
inductive CVal where
  | nil
  | bool (b : Bool)
  | num (i : Int)
  | tup (l : List CVal)

/-- C `return -1;` in a function returning `PN`. -/
def rawM1 : PN := BitVec.ofInt 64 (-1)
/-- C `return 0;`. -/
def raw0 : PN := 0#64
/-- C `return 1;`. -/
def raw1 : PN := 1#64

/-- primitive.c:51-61 `potion_bool_cmp` on a boolean: `self < value ? -1 : self == value ? 0 : 1` (words). -/
def boolBoolCmp (a b : Bool) : PN :=
  if (pnBool a).toNat < (pnBool b).toNat then rawM1 else if pnBool a = pnBool b then raw0 else raw1

/-- `potion_send(a, PN_cmp, b)`; fuel bounds the depth of nested sends. -/
def cmpVal : (fuel : Nat) → CVal → CVal → Option PN
  | 0, _, _ => none
  -- number.c:396-407: a non-integer argument sends the message the wrong way round (number.c:404): not modelled
  | _+1, .num a, .num b => some (numCmp (pnNum a) (pnNum b))
  | _+1, .num _, _ => none
  -- primitive.c:51-61
  | _+1, .bool a, .bool b => some (boolBoolCmp a b)
  | _+1, .bool a, .num b => some (numCmp (pnNum (if a then 1 else 0)) (pnNum b))
  | _+1, .bool _, _ => some raw1       -- `value == PN_FALSE ? -1 : 1` with a value that is no boolean
  -- primitive.c:35-48
  | _+1, .nil, .nil => some raw0
  | _+1, .nil, .num b => some (numCmp PN_ZERO (pnNum b))
  | _+1, .nil, .bool b => some (boolBoolCmp false b)
  | _+1, .nil, .tup _ => some (pnNum (-1))
  -- table.c:882-915
  | _+1, .tup _, .bool b => some (if b then raw1 else rawM1)
  | _+1, .tup _, .nil => some rawM1
  | _+1, .tup _, .num _ => none
  | fuel+1, .tup (a :: l1), .tup (b :: l2) =>
    match cmpVal fuel a b with
    | none => none
    | some c =>
      if c = PN_ZERO then cmpVal fuel (.tup ((a :: l1).dropLast)) (.tup ((b :: l2).dropLast)) else some c
  | _+1, .tup l1, .tup l2 =>
    some (if l2.length ≠ 0 then rawM1 else if l1.length ≠ 0 then raw1 else raw0)

end Potion
