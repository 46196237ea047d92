import Verif.Model.Literal
import Verif.Spec.Send
import Verif.Spec.Show
/-!
Specification for C78: which value an object in memory is, which text and which expression write a value down. `Datum` is the type of values of Spec/Show.lean.
-/
namespace Potion.Send
open Potion Potion.Peg Potion.Spec

mutual
/-- In the memory `m`, `v` is the value. The pairs of a table are listed as they were added. -/
inductive Rep (m : Heap) : Val → Datum → Prop
  | nil : Rep m (.imm PN_NIL) .nil
  | true : Rep m (.imm PN_TRUE) (.bool Bool.true)
  | false : Rep m (.imm PN_FALSE) (.bool Bool.false)
  | int {w i} : Denotes w i → Rep m (.imm w) (.int i)
  | str {s} : Rep m (.str s) (.str s)
  | list {n vs l} : m[n]? = some (.list vs) → RepAll m vs l → Rep m (.ref n) (.list l)
  | table {n ps l} : m[n]? = some (.table ps) → RepPairs m ps l → Rep m (.ref n) (.table l)
  | lick {n a b c x y z} : m[n]? = some (.lick a b c) → Rep m a x → Rep m b y → Rep m c z → Rep m (.ref n) (.lick x y z)
inductive RepAll (m : Heap) : List Val → Data → Prop
  | nil : RepAll m [] .nil
  | cons {v vs d l} : Rep m v d → RepAll m vs l → RepAll m (v :: vs) (.cons d l)
inductive RepPairs (m : Heap) : List (Val × Val) → Pairs → Prop
  | nil : RepPairs m [] .nil
  | cons {k v ps x d l} : Rep m k x → Rep m v d → RepPairs m ps l → RepPairs m ((k, v) :: ps) (.cons x d l)
end

/-- The key `k` is not in the table. -/
def Fresh (k : Ident) : Pairs → Prop
  | .nil => True
  | .cons x _ l => x ≠ .str k ∧ Fresh k l

/-- The elements of a list with their numbers as keys, then the pairs. -/
def numbered : Nat → Data → Pairs → Pairs
  | _, .nil, ps => ps
  | i, .cons d l, ps => .cons (.int i) d (numbered (i + 1) l ps)
def count : Data → Nat
  | .nil => 0
  | .cons _ l => count l + 1

mutual
/-- The expression writes the value down. -/
inductive Writes : Ex → Datum → Prop
  | nil : Writes (.chain (.lit (.imm PN_NIL))) .nil
  | true : Writes (.chain (.lit (.imm PN_TRUE))) (.bool Bool.true)
  | false : Writes (.chain (.lit (.imm PN_FALSE))) (.bool Bool.false)
  | int {w i} : Denotes w i → Writes (.chain (.lit (.imm w))) (.int i)
  | str {s} : s.length ≠ 33 → Writes (.chain (.lit (.str s))) (.str s)
  | list {es l} : WritesAll es l → Writes (.chain (.list es)) (.list l)
  /-- Tables have at least one pair: `()` is a list. -/
  | table {k e es d l} : Writes e d → WritesPairs es l → Fresh k l → Writes (.chain (.list (.pair k e es))) (.table (.cons (.str k) d l))
  /-- Elements before the pairs have their numbers as keys. -/
  | mixed {e es d l ps} : Writes e d → WritesMixed es l ps → count l < 2 ^ 62 → Writes (.chain (.list (.cons e es))) (.table (numbered 0 (.cons d l) ps))
  | licks {ls l} : WritesLicks ls l → Writes (.chain (.licks ls)) (.list l)
inductive WritesAll : Exs → Data → Prop
  | nil : WritesAll .nil .nil
  | cons {e es d l} : Writes e d → WritesAll es l → WritesAll (.cons e es) (.cons d l)
inductive WritesPairs : Exs → Pairs → Prop
  | nil : WritesPairs .nil .nil
  | cons {k e es d l} : Writes e d → WritesPairs es l → Fresh k l → WritesPairs (.pair k e es) (.cons (.str k) d l)
/-- Any number of elements, then at least one pair. -/
inductive WritesMixed : Exs → Data → Pairs → Prop
  | pairs {k e es d l} : Writes e d → WritesPairs es l → Fresh k l → WritesMixed (.pair k e es) .nil (.cons (.str k) d l)
  | cons {e es d l ps} : Writes e d → WritesMixed es l ps → WritesMixed (.cons e es) (.cons d l) ps
/-- What is in a lick: nothing, a literal, or licks. -/
inductive WritesInner : Chain → Datum → Prop
  | none : WritesInner .here .nil
  | lit {v d} : Writes (.chain (.lit v)) d → WritesInner (.lit v) d
  | licks {ls l} : WritesLicks ls l → WritesInner (.licks ls) (.list l)
inductive WritesLicks : Lks → Data → Prop
  | nil : WritesLicks .nil .nil
  | item {x c r d l} : WritesInner c d → WritesLicks r l → WritesLicks (.item x c r) (.cons (.lick (.str x) d .nil) l)
  | attrs {x c as r d a l} : WritesInner c d → Writes (.chain (.list as)) a → WritesLicks r l → WritesLicks (.attrs x c as r) (.cons (.lick (.str x) d a) l)
end

mutual
/-- The text writes the value down: numbers, strings in quotes, `(1, 2)`, `(k=1, j=2)`, with any white space. -/
inductive Spells : List (BitVec 8) → Datum → Prop
  | nil : Spells (chars "nil") .nil
  | true : Spells (chars "true") (.bool Bool.true)
  | false : Spells (chars "false") (.bool Bool.false)
  | int {ds} : IsInt ds → InRange (numeral 10 ds) → Spells (ds.map digitChar) (.int (numeral 10 ds))
  | str {s v} : IsString s v → v.length ≠ 33 → Spells s (.str v)
  | empty {g} : Gap Bool.false g → Spells (chars "(" ++ (g ++ chars ")")) (.list .nil)
  | list {g s l w} : Gap Bool.false g → SpellsAll s l → Space w (chars ")") → Spells (chars "(" ++ (g ++ (s ++ (w ++ chars ")")))) (.list l)
  | table {g s l w} : Gap Bool.false g → SpellsPairs s l → Space w (chars ")") → Spells (chars "(" ++ (g ++ (s ++ (w ++ chars ")")))) (.table l)
  | mixed {g s d w sp s' l ps w'} : Gap Bool.false g → Spells s d → Space w sp → Separator sp → SpellsMixed s' l ps → count l < 2 ^ 62 → Space w' (chars ")") →
      Spells (chars "(" ++ (g ++ ((s ++ (w ++ (sp ++ s'))) ++ (w' ++ chars ")")))) (.table (numbered 0 (.cons d l) ps))
/-- Any number of elements, then at least one pair. -/
inductive SpellsMixed : List (BitVec 8) → Data → Pairs → Prop
  | pairs {s ps} : SpellsPairs s ps → SpellsMixed s .nil ps
  | cons {s d w sp s' l ps} : Spells s d → Space w sp → Separator sp → SpellsMixed s' l ps → SpellsMixed (s ++ (w ++ (sp ++ s'))) (.cons d l) ps
/-- One or more, separated by commas or newlines; a separator may follow the last. -/
inductive SpellsAll : List (BitVec 8) → Data → Prop
  | one {s d} : Spells s d → SpellsAll s (.cons d .nil)
  | oneSep {s d w sp} : Spells s d → Space w sp → Separator sp → SpellsAll (s ++ (w ++ sp)) (.cons d .nil)
  | more {s d w sp s' l} : Spells s d → Space w sp → Separator sp → SpellsAll s' l → SpellsAll (s ++ (w ++ (sp ++ s'))) (.cons d l)
/-- `k = v` -/
inductive SpellsPair : List (BitVec 8) → Ident → Datum → Prop
  | mk {k w g s d} : IsName k → Blank w → Gap Bool.false g → Spells s d → SpellsPair (k ++ (w ++ (chars "=" ++ (g ++ s)))) k d
inductive SpellsPairs : List (BitVec 8) → Pairs → Prop
  | one {s k d} : SpellsPair s k d → SpellsPairs s (.cons (.str k) d .nil)
  | oneSep {s k d w sp} : SpellsPair s k d → Space w sp → Separator sp → SpellsPairs (s ++ (w ++ sp)) (.cons (.str k) d .nil)
  | more {s k d w sp s' l} : SpellsPair s k d → Space w sp → Separator sp → SpellsPairs s' l → Fresh k l → SpellsPairs (s ++ (w ++ (sp ++ s'))) (.cons (.str k) d l)
end

/-- Element `i` of a list. -/
def nth : Data → Nat → Option Datum
  | .nil, _ => none
  | .cons d _, 0 => some d
  | .cons _ l, i + 1 => nth l i
/-- The value at a key. -/
def atKey : Pairs → Ident → Datum → Prop
  | .nil, _, d => d = .nil
  | .cons x v l, k, d => (x = .str k ∧ d = v) ∨ (x ≠ .str k ∧ atKey l k d)

end Potion.Send
