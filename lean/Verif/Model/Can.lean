import Verif.Model.Objects
/-!
Model of the questions one can ask an object about its class (/repo/core/objmodel.c 430-443, 551-561, 624-630).
The same simplifications as in `Model/Objects.lean`.
-/
namespace Potion.Obj

/-- potion.h:142 `PN_TYPE` of a receiver: classes and metaclasses have the type PN_TVTABLE. -/
def typeOf : Rcv → Nat
  | .val t => t
  | .cls _ => TVTABLE

/-- objmodel.c:628-630 `potion_lobby_can`. `none`: the lookup has no answer (a user-defined `lookup` takes over, an
invalid class, or the chain does not end within `fuel` steps). -/
def can (s : St) (fuel : Nat) (r : Rcv) (msg : Name) : Option Bool :=
  match bind s fuel r msg with
  | .ret (some _) => some true
  | .ret none => some false
  | _ => none

/-- What `isa?` answers: true or false, or a type error. -/
inductive Isa
  | bool (b : Bool)
  | typeError
  deriving DecidableEq

/-- objmodel.c:554-561 `potion_lobby_isa` with a class or metaclass `q` as argument (`none`: not an address of a class;
line 557 rejects every argument that is not one). `ptr`: the receiver is a heap object. -/
def isa (s : St) (ptr : Bool) (r : Rcv) (q : Ptr) : Option Isa :=
  match s.objs[q]? with
  | none => none
  | some v =>
    if ¬ v.type < s.size then some .typeError
    else if ptr ∧ ¬ typeOf r < s.size then some .typeError
    else some (.bool (typeOf r = v.type))

/-- objmodel.c:430-443 `potion_lobby_methods`: the method table answered, nil for an invalid type. The outer `none` is an
invalid class. -/
def methodTable (s : St) (r : Rcv) : Option (Option (Name → Option Cl)) :=
  match r with
  | .cls p => match s.objs[p]? with
    | none => none
    | some v => match v.metac with
      | some _ => some (some v.methods)
      | none => (s.vtable TVTABLE).map fun w => some w.methods
  | .val t => if t < s.size then (s.vtable t).map fun w => some w.methods else some none

end Potion.Obj
