import Verif.Model.Send
/-!
Lists, tables and licks in memory: a world (Model/Send.lean) in which these are cells of a heap and every other operation is arbitrary. /repo/core/vm.c:725-743,
table.c:47-76, 119-129, 152-155, 310-321, 365-371, 579-589, lick.c.
-/
namespace Potion.Send
open Potion Potion.Peg Potion.CompileAll

/-- A value: an immediate one, a string (equal strings are one object, C17), any other constant, or an object of the heap. -/
inductive Val
  | imm (w : PN)
  | str (s : List (BitVec 8))
  | other (t : Tree)
  | ref (n : Nat)

/-- Words are compared by `kh_get`. Simplified: constants other than immediate values and strings differ from everything, also from themselves. -/
def Val.same : Val → Val → Bool
  | .imm a, .imm b => a == b
  | .str a, .str b => a == b
  | .ref a, .ref b => a == b
  | _, _ => false

/-- The contents of an object. A table is what C05 shows it to be, a finite map; the order of its pairs is not that of its buckets. -/
inductive Cell
  | list (l : List Val)
  | table (l : List (Val × Val))
  | lick (name inner attr : Val)

/-- Nothing is freed or moved (C32-C36). -/
abbrev Heap := List Cell

/-- The value of a constant. -/
def constVal : Tree → Val
  | .imm w => .imm w
  | .str s => .str s
  | t => .other t

def cellAt (m : Heap) : Val → Option Cell
  | .ref n => m[n]?
  | _ => none
def setCell (m : Heap) (v : Val) (c : Cell) : Heap :=
  match v with
  | .ref n => m.set n c
  | _ => m

/-- table.c:47-64 `potion_table_cast`: the number of an element becomes its key. -/
def castPairs : Nat → List Val → List (Val × Val)
  | _, [] => []
  | i, v :: l => (.imm (pnNum i), v) :: castPairs (i + 1) l

/-- `kh_put`, `kh_val` -/
def putPair (k v : Val) : List (Val × Val) → List (Val × Val)
  | [] => [(k, v)]
  | (k', v') :: l => if k'.same k then (k', v) :: l else (k', v') :: putPair k v l
/-- `kh_get` -/
def getPair (k : Val) : List (Val × Val) → Option Val
  | [] => none
  | (k', v) :: l => if k'.same k then some v else getPair k l

section
variable {E : Type} (rest : World Val Heap E)

/-- table.c:310-321 `potion_tuple_push` -/
def push (t v : Val) (m : Heap) : Except E (Val × Heap) :=
  match cellAt m t with
  | some (.list l) => .ok (t, setCell m t (.list (l ++ [v])))
  | _ => rest.push t v m

/-- table.c:152-155 `potion_table_set`, 119-129 `potion_table_put` -/
def put (t k v : Val) (m : Heap) : Except E Heap :=
  match cellAt m t with
  | some (.list l) => .ok (setCell m t (.table (putPair k v (castPairs 0 l))))
  | some (.table l) => .ok (setCell m t (.table (putPair k v l)))
  | _ => rest.put t k v m

/-- vm.c:727-732 `GETTUPLE`; outside of the list it reads whatever is there. -/
def tupleAt (t i : Val) (m : Heap) : Except E (Val × Heap) :=
  match cellAt m t, i with
  | some (.list l), .imm w =>
    if 0 ≤ pnInt w ∧ (pnInt w).toNat < l.length then .ok (l.getD (pnInt w).toNat (.imm PN_NIL), m) else rest.tupleAt t i m
  | _, _ => rest.tupleAt t i m

/-- table.c:70-76 `potion_table_at` -/
def tableAt (t k : Val) (m : Heap) : Except E (Val × Heap) :=
  match cellAt m t with
  | some (.table l) => .ok ((getPair k l).getD (.imm PN_NIL), m)
  | _ => rest.tableAt t k m

/-- The world with these objects; methods, operators and the rest are those of `rest`. -/
def objects : World Val Heap E := { rest with
  const := constVal
  tuple := fun m => .ok (.ref m.length, m ++ [.list []])
  push := push rest
  put := put rest
  tupleAt := tupleAt rest
  tableAt := tableAt rest
  lick := fun n i a m => .ok (.ref m.length, m ++ [.lick n i a]) }
end

/-- lick.c:43-45 `potion_lick_name` -/
def lickName (m : Heap) (v : Val) : Option Val := match cellAt m v with
  | some (.lick n _ _) => some n
  | _ => none
/-- lick.c:23-25 `potion_lick_attr` -/
def lickAttr (m : Heap) (v : Val) : Option Val := match cellAt m v with
  | some (.lick _ _ a) => some a
  | _ => none
/-- lick.c:30-34 `potion_lick_licks`: `PN_IS_TUPLE` -/
def lickLicks (m : Heap) (v : Val) : Option Val := match cellAt m v with
  | some (.lick _ i _) => match cellAt m i with
    | some (.list _) => some i
    | _ => some (.imm PN_NIL)
  | _ => none
/-- lick.c:50-54 `potion_lick_text`: `PN_IS_STR` -/
def lickText (m : Heap) (v : Val) : Option Val := match cellAt m v with
  | some (.lick _ i _) => match i with
    | .str s => some (.str s)
    | _ => some (.imm PN_NIL)
  | _ => none

end Potion.Send
