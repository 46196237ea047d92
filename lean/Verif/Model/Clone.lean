import Verif.Model.Objects
/-!
Model of the method `clone` of functions (/repo/core/compile.c 1080-1112 `potion_proto_clone`; /repo/core/potion.h 454-471
`struct PNProto`, 781-786 `potion_send`). Simplifications: what a method that is found does is any function `call`; the
machine code pointer and the cached number of arguments, which the clone does not set, are left out.
-/
namespace Potion.Obj

/-- What the clone reads of the values of the interpreter: the elements of a tuple (`none`: not a tuple), the type of a
value that is not a class, the identity under which a value is looked up as the name of a method, the strings, and what the
methods do. -/
structure World (V : Type) where
  nil : V
  elems : V → Option (List V)
  typeOf : V → Nat
  key : V → Name
  str : String → V
  call : Cl → V → Option V

/-- potion.h:454-471 `struct PNProto`; `code` is the content of `asmb`. -/
structure Fn (V : Type) where
  source : V
  sig : V
  stack : V
  paths : V
  locals : V
  upvals : V
  values : V
  protos : V
  debugs : V
  tree : V
  name : V
  pathsize : Nat
  localsize : Nat
  upvalsize : Nat
  code : List UInt8

/-- potion.h:781-786 `potion_send` without arguments, to a value that is not a class: nil if there is no such method. `none`:
the lookup does not answer (or the method does not). -/
def send {V : Type} (w : World V) (s : St) (fuel : Nat) (rcv msg : V) : Option V :=
  match bind s fuel (.val (w.typeOf rcv)) (w.key msg) with
  | .ret none => some w.nil
  | .ret (some c) => w.call c rcv
  | _ => none

/-- compile.c:1103: the signature is copied if it is a tuple. -/
def cloneSig {V : Type} (w : World V) (s : St) (fuel : Nat) (c sig : V) : Option V :=
  if (w.elems sig).isSome then send w s fuel c sig else some sig

/-- compile.c:1082-1112 `potion_proto_clone`. The code sends `potion_send(PN_clone, f->protos)`: the receiver is the string
`clone`, and the message is the tuple. -/
def protoClone {V : Type} (w : World V) (s : St) (fuel : Nat) (f : Fn V) : Option (Fn V) := do
  let c := w.str "clone"
  let protos ← send w s fuel c f.protos
  let paths ← send w s fuel c f.paths
  let locals ← send w s fuel c f.locals
  let upvals ← send w s fuel c f.upvals
  let values ← send w s fuel c f.values
  let debugs ← send w s fuel c f.debugs
  let sig ← cloneSig w s fuel c f.sig
  return { name := f.name, source := f.source, stack := f.stack, protos, paths, locals, upvals, values, debugs,
           tree := f.tree, localsize := f.localsize, upvalsize := f.upvalsize, pathsize := f.pathsize, sig, code := f.code }

end Potion.Obj
