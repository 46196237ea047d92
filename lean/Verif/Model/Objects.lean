import Mathlib.Logic.Function.Basic
/-!
Model of classes, method lookup and instance variables (/repo/core/objmodel.c 193-429, 530-650; /repo/core/internal.c
31-55, 119-141). Names are interned strings, identified by a number; `uniq` is the random 32-bit identity every object
gets when it is allocated (potion.h:718), so it is an arbitrary function of the name.
Simplifications: the method table of a class is a finite map (the khash table of `Model/Khash.lean`, see C05); the
instance variable tuple is copied by value (the code keeps the caller's tuple); constructors, default call methods and
class names are left out, and so is the collector.
-/
namespace Potion.Obj

abbrev Name := Nat
/-- Address of a `struct PNVtable`. -/
abbrev Ptr := Nat

/-- A closure found by lookup: the built-in `potion_lookup`, or any other. -/
inductive Cl
  | lookup
  | fn (n : Nat)
  deriving DecidableEq

/-- The name `"lookup"` (internal.c:82 `PN_lookup`). -/
def lookupName : Name := 0

/-- table.h:24-37 `struct PNVtable`. Types are counted from PN_TNIL; `parent = none` is the parent type 0. `ivars = none`
is nil. `ivlen` is the length of the tuple when it was installed. `metac = none` marks a metaclass. -/
structure Vt where
  type : Nat
  parent : Option Nat
  ivars : Option (List Name)
  ivlen : Nat
  methods : Name → Option Cl
  metac : Option Ptr

/-- The class part of the interpreter state: the vtables allocated so far and `P->vts` (entries and length). -/
structure St where
  objs : List Vt
  vts : Nat → Option Ptr
  size : Nat

/-- potion.h:120-139: type numbers used below. -/
def TNUMBER : Nat := 1
def TBOOLEAN : Nat := 2
def TOBJECT : Nat := 11
def TVTABLE : Nat := 12
def TLOBBY : Nat := 16
def TUSER : Nat := 23

/-- internal.c:124-125: an empty type table of length PN_TYPE_ID(PN_TUSER) + 1. -/
def St.empty : St := { objs := [], vts := fun _ => none, size := TUSER + 1 }

/-- objmodel.c:193-206 `potion_add_metaclass`: called with the address of the class. -/
def addMetaclass (s : St) (p : Ptr) : St :=
  { objs := s.objs.modify p (fun v => { v with metac := some s.objs.length }) ++
      [{ type := s.size, parent := some TVTABLE, ivars := none, ivlen := 0, methods := fun _ => none, metac := none }]
    vts := Function.update s.vts s.size (some s.objs.length)
    size := s.size + 1 }

/-- objmodel.c:208-218 `potion_type_new`: `self` is the parent class, if any. -/
def typeNew (s : St) (t : Nat) (self : Option Vt) : Ptr × St :=
  (s.objs.length,
    addMetaclass
      { s with
        objs := s.objs ++ [{ type := t, parent := self.map (·.type), ivars := none, ivlen := 0,
                             methods := fun _ => none, metac := none }]
        vts := Function.update s.vts t (some s.objs.length) }
      s.objs.length)

/-- PN_PUT (table.c:346-353 `potion_tuple_push_unless`) of each element of the second list. -/
def putAll (own : List Name) : List Name → List Name
  | [] => own
  | v :: vs => putAll (if v ∈ own then own else own ++ [v]) vs

/-- objmodel.c:285-299 `potion_ivars`. -/
def setIvars (s : St) (p : Ptr) (iv : List Name) : St :=
  { s with objs := s.objs.modify p (fun v => { v with ivars := some iv, ivlen := iv.length }) }

/-- objmodel.c:247-272 `potion_class`: `self` is the parent class (`none`: nil or the lobby), `ivars` the tuple of
instance variables or nil. `none`: the parent is not a class. -/
def mkClass (s : St) (self : Option Ptr) (ivars : Option (List Name)) : Option (Ptr × St) :=
  match (match self with | none => s.vts TOBJECT | some p => some p) with
  | none => none
  | some p => match s.objs[p]? with
    | none => none
    | some parent =>
      let (q, s') := typeNew { s with size := s.size + 1 } s.size (some parent)
      match parent.ivars with
      | some pv => some (q, setIvars s' q (putAll (ivars.getD []) pv))
      | none => match ivars with
        | some iv => some (q, setIvars s' q iv)
        | none => some (q, s')

/-- internal.c:137-141 `potion_delegated`: the length of `P->vts` is not increased for the new type. -/
def delegated (s : St) (self : Ptr) : Option (Ptr × St) :=
  match s.objs[self]? with
  | none => none
  | some v => some (typeNew s s.size (some v))

/-- objmodel.c:351-395 `potion_def_method` on a class: the later definition replaces the earlier one. -/
def defMethod (s : St) (self : Ptr) (key : Name) (m : Cl) : St :=
  { s with objs := s.objs.modify self (fun v => { v with methods := Function.update v.methods key (some m) }) }

/-- A receiver: a value of the given type (instances, integers, strings, ...), or a class or metaclass. -/
inductive Rcv
  | val (type : Nat)
  | cls (p : Ptr)

/-- Outcome of looking for a method: found or nil; a user-defined `lookup` method takes over; an invalid class pointer;
the parent chain does not end within the given number of steps. -/
inductive Found
  | ret (c : Option Cl)
  | custom
  | bad
  | fuel
  deriving DecidableEq

/-- objmodel.c:397-408 `potion_lookup` in the class `p`. -/
def lookup (s : St) (p : Ptr) (key : Name) : Option (Option Cl) := (s.objs[p]?).map (·.methods key)

/-- objmodel.c:414-420: where `potion_bind` starts. The inner `none` is an invalid type (nil is answered). -/
def start (s : St) : Rcv → Option (Option Ptr)
  | .val t => if t < s.size then (s.vts t).map some else some none
  | .cls p => match s.objs[p]? with
    | none => none
    | some v => match v.metac with
      | some m => some (some m)
      | none => (s.vts TVTABLE).map some

/-- objmodel.c:421-427, the loop with `potion_lookup` called directly (message `lookup` to a class). -/
def walkDirect (s : St) (key : Name) : (fuel : Nat) → Ptr → Found
  | 0, _ => .fuel
  | f+1, p => match s.objs[p]? with
    | none => .bad
    | some v => match v.methods key with
      | some c => .ret (some c)
      | none => match v.parent with
        | none => .ret none
        | some t => match s.vts t with
          | none => .bad
          | some q => walkDirect s key f q

/-- objmodel.c:423 `potion_send(vt, PN_lookup, msg)`: the method `lookup` of the class `p` itself is looked up first. -/
def sendLookup (s : St) (fuel : Nat) (p : Ptr) (key : Name) : Found :=
  match start s (.cls p) with
  | none => .bad
  | some none => .ret none
  | some (some q) => match walkDirect s lookupName fuel q with
    | .ret (some .lookup) => match lookup s p key with
      | none => .bad
      | some c => .ret c
    | .ret _ => .custom
    | e => e

/-- objmodel.c:421-427, the loop for other messages (`fl`: steps allowed for the inner lookups). -/
def walk (s : St) (key : Name) (fl : Nat) : (fuel : Nat) → Ptr → Found
  | 0, _ => .fuel
  | f+1, p => match sendLookup s fl p key with
    | .ret (some c) => .ret (some c)
    | .ret none => match s.objs[p]? with
      | none => .bad
      | some v => match v.parent with
        | none => .ret none
        | some t => match s.vts t with
          | none => .bad
          | some q => walk s key fl f q
    | e => e

/-- objmodel.c:411-429 `potion_bind`. -/
def bind (s : St) (fuel : Nat) (r : Rcv) (msg : Name) : Found :=
  match start s r with
  | none => .bad
  | some none => .ret none
  | some (some p) => match r with
    | .cls _ => if msg = lookupName then walkDirect s msg fuel p else walk s msg fuel fuel p
    | .val t => if msg = lookupName ∧ t = TVTABLE then walkDirect s msg fuel p else walk s msg fuel fuel p

/-- vm-x86.c:1122-1151 `potion_x86_ivars`, the code generated for `vt->ivfunc`: index of the first variable whose `uniq`
equals the given one, else -1. -/
def ivfunc (uniq : Name → BitVec 32) : List Name → Nat → BitVec 32 → Option Nat
  | [], _, _ => none
  | v :: vs, i, u => if uniq v = u then some i else ivfunc uniq vs (i + 1) u

/-- An object of a user class: its type and the words after the header. -/
structure Object (V : Type) where
  type : Nat
  slots : List V

/-- objmodel.c:530-539 `potion_object_new`: nil for metaclasses and for Mixin; room for `ivlen` variables. Fresh
memory reads as nil. (The block allocated is larger by the size of a vtable; the rest is never addressed.) -/
def objectNew {V : Type} (nil : V) (s : St) (p : Ptr) : Option (Object V) :=
  match s.objs[p]? with
  | none => none
  | some v => match v.metac with
    | none => none
    | some _ => if v.type = TVTABLE then none else some { type := v.type, slots := List.replicate v.ivlen nil }

/-- objmodel.c:309-323 `potion_obj_find_ivar` with the generated function. A class without instance variables has none. -/
def findIvar {V : Type} (uniq : Name → BitVec 32) (s : St) (o : Object V) (iv : Name) : Option (Option Nat) :=
  match (s.vts o.type).bind (s.objs[·]?) with
  | none => none
  | some v => match v.ivars with
    | none => some none
    | some l => some (ivfunc uniq l 0 (uniq iv))

/-- objmodel.c:326-331 `potion_obj_get`. Reading outside the object is `none`. -/
def objGet {V : Type} (nil : V) (uniq : Name → BitVec 32) (s : St) (o : Object V) (iv : Name) : Option V :=
  match findIvar uniq s o iv with
  | none => none
  | some none => some nil
  | some (some i) => o.slots[i]?

/-- objmodel.c:333-340 `potion_obj_set`. -/
def objSet {V : Type} (uniq : Name → BitVec 32) (s : St) (o : Object V) (iv : Name) (x : V) : Option (Object V) :=
  match findIvar uniq s o iv with
  | none => none
  | some none => some o
  | some (some i) => if i < o.slots.length then some { o with slots := o.slots.set i x } else none

/-- internal.c:31-55 `potion_init`: the built-in types in order, with the type of the parent. -/
def builtins : List (Nat × Option Nat) :=
  [(16, none), (12, some 16), (11, some 16), (1, some 11), (3, some 1), (4, some 1), (0, some 11), (2, some 11),
   (5, some 11), (17, some 11), (7, some 11), (8, some 11), (10, some 11), (9, some 11), (13, some 11), (14, some 11),
   (15, some 11), (6, some 11), (18, some 11), (21, some 11), (22, some 11)]

/-- The vtable of a type. -/
def St.vtable (s : St) (t : Nat) : Option Vt := (s.vts t).bind (s.objs[·]?)

def bootTypes : List (Nat × Option Nat) → St → St
  | [], s => s
  | (t, none) :: l, s => bootTypes l (typeNew s t none).2
  | (t, some p) :: l, s => bootTypes l (typeNew s t (s.vtable p)).2

/-- internal.c:31-55 and 91: the built-in types, and `lookup` defined for classes. -/
def boot : St :=
  let s := bootTypes builtins St.empty
  match s.vts TVTABLE with
  | some p => defMethod s p lookupName .lookup
  | none => s

/-- The history of `boot`: the i-th built-in type is at address 2i, its metaclass at 2i+1. -/
def bootAddr (t : Nat) : Ptr := 2 * (builtins.map (·.1)).idxOf t
/-- The address of the class of classes. -/
abbrev mixin : Ptr := 2

/-- objmodel.c:618-622 `potion_lobby_kind` of a value of the given type. -/
def kind (s : St) (t : Nat) : Option Ptr := if t < s.size then s.vts t else none

/-- objmodel.c:627-635 `potion_lobby_parent` of a class other than the lobby. -/
def parentOf (s : St) (p : Ptr) : Option Ptr :=
  match s.objs[p]? with
  | none => none
  | some v => match v.parent with
    | none => s.vts TLOBBY
    | some t => if t < s.size then s.vts t else s.vts TLOBBY

/-- objmodel.c:570-586 `potion_object_subclass`, the loop. -/
def subclassLoop (s : St) (t0 : Nat) : (fuel : Nat) → (t : Nat) → Option Bool
  | 0, _ => none
  | f+1, t => match s.vtable t with
    | none => none
    | some v => match v.parent with
      | none => some false
      | some p => if t0 = p then some true else subclassLoop s t0 f p

/-- objmodel.c:570-586 `potion_object_subclass` of a value of type `t` (`ptr`: a heap object) and the class `q`. -/
def subclass (s : St) (fuel : Nat) (t : Nat) (ptr : Bool) (q : Ptr) : Option Bool :=
  match s.objs[q]? with
  | none => none
  | some v =>
    if t = v.type then some true
    else if ptr then subclassLoop s v.type fuel t
    else some (v.type = TNUMBER ∧ t = 4)

end Potion.Obj
