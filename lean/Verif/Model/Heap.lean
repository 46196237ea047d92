import Verif.Model.Gc
/-!
Model of the mutator's side of the heap: allocation, reallocation, the write barrier, the operations on lists, tables and
objects that write references, and the collections as the program sees them.
(/repo/core/potion.h 699-763; /repo/core/table.c 46-64, 100-133, 297-321, 566-605; /repo/core/objmodel.c 329-336;
/repo/core/gc.c 144-303.)
Simplifications: as in Model/Gc.lean; whether a collection is due is not decided here, so that the theorems hold whenever
it happens; an object's contents are replaced as a whole.
-/
namespace Potion.Gc

/-- gc.h IS_GC_PROTECTED, IN_OLDER_REGION, IN_BIRTH_REGION: the region a cell lies in. `gone`: given back. -/
inductive Space
  | prot | old | young | gone
  deriving DecidableEq, Repr

/-- potion.h:645-665 `struct PNMemory`. `roots`: what the C stack holds, with `P`. `store`: the store list, growing down
from the top of the birth region, newest entry first. `strings`: the keys of the intern table. -/
structure Heap where
  mem : Mem
  space : List Space
  roots : List Val
  store : List Addr
  strings : List Addr
  deriving DecidableEq

/-- gc.h IS_NEW_PTR. -/
def Heap.isYoung (h : Heap) (a : Addr) : Bool := h.space[a]? = some .young
/-- The condition of gc.h GC_MAJOR_UPDATE. -/
def Heap.isMovable (h : Heap) (a : Addr) : Bool := h.space[a]? = some .young ∨ h.space[a]? = some .old
/-- The protected region, in order (gc.c:232-234). -/
def Heap.prot (h : Heap) : List Addr := (List.range h.mem.length).filter fun a => h.space[a]? = some .prot

/-- potion.h:700-721 `potion_gc_alloc`, and the initialisation that follows it. -/
def Heap.alloc (h : Heap) (o : Obj) : Heap :=
  { h with mem := h.mem ++ [.obj o], space := h.space ++ [.young], roots := .ref h.mem.length :: h.roots }

/-- string.c `potion_str`, `potion_bytes` … of a string that is not interned yet. -/
def Heap.intern (h : Heap) (chars : List Nat) : Heap :=
  { h.alloc (.raw chars) with strings := h.mem.length :: h.strings }

/-- potion.h:728-738 `potion_gc_update`, PN_TOUCH. -/
def Heap.touch (h : Heap) (x : Addr) : Heap :=
  if h.isYoung x ∨ x ∈ h.store.take 3 then h else { h with store := x :: h.store }

/-- Writing into the storage a reference resolves to, without a barrier (table.c:100-117 `potion_table_map` until its end). -/
def Heap.poke (h : Heap) (a : Addr) (o : Obj) : Option Heap :=
  match fwd h.mem (h.mem.length + 1) a with
  | none => none
  | some v => match h.mem[v]? with
    | some (.obj _) => some { h with mem := h.mem.set v (.obj o) }
    | _ => none

/-- table.c:122-133 `potion_table_put`, 308-321 `potion_tuple_push`, 577-587 `potion_tuple_put`, 590-605
`potion_tuple_unshift`, objmodel.c:329-336 `potion_obj_set`: the storage is written, the reference that was passed is
touched. -/
def Heap.write (h : Heap) (a : Addr) (o : Obj) : Option Heap := (h.poke a o).map (·.touch a)

/-- potion.h:740-763 `potion_gc_realloc` of the storage of `a`, and writing of the new contents. -/
def Heap.realloc (h : Heap) (a : Addr) (o : Obj) : Option Heap :=
  match fwd h.mem (h.mem.length + 1) a with
  | none => none
  | some v => match h.mem[v]? with
    | some (.obj _) =>
      let h' : Heap := { h with mem := List.set (h.mem ++ [Cell.obj o]) v (.fwd h.mem.length), space := h.space ++ [.young] }
      some (h'.touch v)
    | _ => none

/-- table.c:56-60, the end of `potion_table_cast`: the cell at `self` is made to forward to the table `t`. -/
def Heap.become (h : Heap) (self t : Addr) : Heap :=
  let h' : Heap := { h with mem := h.mem.set self (.fwd t) }
  h'.touch self

/-- gc.h SET_GEN, NEW_BIRTH_REGION: the evacuated cells are gone, the copies are old, the store list is empty. -/
def Heap.after (h : Heap) (isFrom : Addr → Bool) (r : After) : Heap where
  mem := r.mem
  space := (h.space.mapIdx fun a s => if isFrom a then .gone else s) ++
    List.replicate (r.mem.length - h.mem.length) .old
  roots := r.roots
  store := []
  strings := r.strings

/-- gc.c:144-186 `potion_gc_minor`. -/
def Heap.minor (h : Heap) : Option Heap :=
  (Gc.minor h.isYoung (h.mem.length + 1) h.mem h.roots h.store h.strings).map (h.after h.isYoung)

/-- gc.c:188-265 `potion_gc_major`. -/
def Heap.major (h : Heap) : Option Heap :=
  (Gc.major h.isMovable (h.mem.length + 1) h.mem h.roots h.prot h.strings).map (h.after h.isMovable)

end Potion.Gc
