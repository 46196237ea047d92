/-!
Model of function signatures: the queries on the flat signature tuple (/repo/core/objmodel.c 73-180, syntax.y 467-492).
-/
namespace Potion.Sig

/-- An element of a signature tuple, as far as `PN_IS_STR`, `PN_IS_INT` and comparison with `PN_NUM` see it. Interned
strings are equal iff their contents are (C06). -/
inductive Item
  | str (s : List (BitVec 8))
  | num (i : Int)
  | other (w : BitVec 64)
  deriving DecidableEq, Repr

/-- `PN_IS_STR` -/
def Item.isStr : Item → Bool
  | .str _ => true
  | _ => false
/-- `PN_IS_INT` -/
def Item.isNum : Item → Bool
  | .num _ => true
  | _ => false

/-- objmodel.c:91-92, 149-150, 179-180: the new count at element `v`, where `next` is `t->set[i+1]`. The element after
the last one is outside of the tuple: `none`. -/
def count (v : Item) (next : Option Item) (c : Int) : Option Int :=
  let c := if v.isStr then c + 1 else c
  if v = .num 58 then                                   -- ':'
    match next with
    | none => none
    | some w => some (if w.isStr then c - 1 else c)
  else some c

/-- objmodel.c:82-97 `potion_sig_arity` of a tuple. -/
def arityLoop : List Item → Int → Option Int
  | [], c => some c
  | v :: rest, c => match count v rest.head? c with
    | none => none
    | some c => arityLoop rest c
def arity (sig : List Item) : Option Int := arityLoop sig 0

/-- objmodel.c:107-122 `potion_sig_minargs` of a tuple. -/
def minLoop : List Item → Int → Int
  | [], c => c
  | v :: rest, c =>
    let c := if v.isStr then c + 1 else c
    if v = .num 124 then c                              -- '|'
    else if v = .num 58 then c - 1
    else minLoop rest c
def minargs (sig : List Item) : Int := minLoop sig 0

/-- objmodel.c:138-161 `potion_sig_at`: a tuple, or (inner `none`) nil. -/
def atLoop (index : Int) : List Item → Int → Option (Option (List Item))
  | [], _ => some none
  | v :: rest, c => match count v rest.head? c with
    | none => none
    | some c =>
      if c = index then some <| some <|
        match rest with
        | t :: rest' => if t.isNum then
            match rest' with
            | d :: _ => if t = .num 58 then [v, t, d] else [v, t]
            | [] => [v, t]
          else [v]
        | [] => [v]
      else atLoop index rest c
def sigAt (sig : List Item) (index : Int) : Option (Option (List Item)) := atLoop index sig (-1)

/-- objmodel.c:173-184 `potion_sig_name_at`. -/
def nameLoop (index : Int) : List Item → Int → Option (Option Item)
  | [], _ => some none
  | v :: rest, c => match count v rest.head? c with
    | none => none
    | some c => if c = index then some (some v) else nameLoop index rest c
def nameAt (sig : List Item) (index : Int) : Option (Option Item) := nameLoop index sig (-1)

/-- syntax.y:469-492 `potion_sig_find`: `prev` is declared inside the loop, so it is always nil when tested. -/
def findLoop (name : Item) : List Item → Int → Int
  | [], _ => -1
  | v :: rest, idx => if v = name then idx else findLoop name rest (if v.isStr then idx + 1 else idx)
def find (sig : List Item) (name : Item) : Int := findLoop name sig 0

end Potion.Sig
