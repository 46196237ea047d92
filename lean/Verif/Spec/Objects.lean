/-!
The class hierarchy a program has built, read off the history of what it did. Classes are identities (numbers).
-/
namespace Potion.Obj

/-- What happened: a class was made (with its metaclass, its parent and its own instance variables); a method was
defined; the class of a delegate was made. -/
inductive Event (M : Type)
  | made (cls metac : Nat) (parent : Option Nat) (own : List Nat)
  | defined (cls : Nat) (name : Nat) (m : M)

variable {M : Type}

/-- Parent of a class: what it was made from. The parent of every metaclass is the class of classes, `mixin`. -/
def parentIn (mixin : Nat) : List (Event M) → Nat → Option Nat
  | [], _ => none
  | .made c mt p _ :: h, x => if x = c then p else if x = mt then some mixin else parentIn mixin h x
  | .defined .. :: h, x => parentIn mixin h x

/-- The method of that name defined in this very class: the last definition counts. Histories are in order of time. -/
def methodIn (h : List (Event M)) (x name : Nat) : Option M :=
  h.foldl (fun r e => match e with
    | .defined c n m => if c = x ∧ n = name then some m else r
    | _ => r) none

/-- The parent chain of a class, itself first. -/
inductive Chain (mixin : Nat) (h : List (Event M)) : Nat → List Nat → Prop
  | last {c} : parentIn mixin h c = none → Chain mixin h c [c]
  | cons {c p l} : parentIn mixin h c = some p → Chain mixin h p l → Chain mixin h c (c :: l)

/-- The method of the nearest class that has one. -/
def nearest (h : List (Event M)) (name : Nat) : List Nat → Option M
  | [] => none
  | c :: l => (methodIn h c name).orElse fun _ => nearest h name l

/-- A class has the variable: it or one of its ancestors was made with it. -/
def HasVar (h : List (Event M)) (l : List Nat) (v : Nat) : Prop :=
  ∃ c ∈ l, ∃ mt p own, Event.made c mt p own ∈ h ∧ v ∈ own

end Potion.Obj
