/-! Specification of list operations, on mathematical sequences. -/
namespace Potion.Spec

/-- Operations of a double-ended sequence. -/
inductive SeqOp (α : Type) where
  | push (v : α)
  | unshift (v : α)
  | pop
  | shift

/-- `pop` and `shift` need a non-empty sequence. -/
def SeqOp.step {α : Type} : SeqOp α → List α → Option (List α × Option α)
  | .push v, l => some (l ++ [v], none)
  | .unshift v, l => some (v :: l, none)
  | .pop, l => match l.getLast? with | none => none | some x => some (l.dropLast, some x)
  | .shift, [] => none
  | .shift, x :: l => some (l, some x)

/-- Run a history; `none` if some `pop`/`shift` hits an empty sequence. -/
def seqRun {α : Type} : List α → List (SeqOp α) → Option (List α × List (Option α))
  | l, [] => some (l, [])
  | l, op :: ops =>
    match op.step l with
    | none => none
    | some (l', o) => match seqRun l' ops with
      | none => none
      | some (l'', os) => some (l'', o :: os)

/-- Element `i` of a sequence, negative indices counting from the end. -/
def nth {α : Type} (l : List α) (i : Int) : Option α :=
  if 0 ≤ i then l[i.toNat]? else if -(l.length : Int) ≤ i then l[(i + l.length).toNat]? else none

end Potion.Spec
