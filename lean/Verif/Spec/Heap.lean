import Verif.Model.Heap
import Verif.Spec.Gc
/-!
Programs that use the heap correctly: they hold only references they were given, leave interned strings alone, and touch
the storage they write to.
-/
namespace Potion.Gc

/-- Only values the program holds are stored. -/
def Heap.Holds (h : Heap) (o : Obj) : Prop := ∀ a, Val.ref a ∈ o.vals → Val.ref a ∈ h.roots

/-- The same when the object replaces the one at `v`. -/
def Heap.HoldsAt (h : Heap) (v : Addr) (o : Obj) : Prop := ∀ a, Val.ref a ∈ o.vals → Val.ref a ∈ h.roots ∨
  ∃ o0, h.mem[v]? = some (.obj o0) ∧ Val.ref a ∈ o0.vals

/-- What the collector supports: no errors; the names of closures and functions are immediates or built-in strings. -/
def Heap.Supported (h : Heap) : Obj → Prop
  | .closure _ _ name _ => ∀ a, name = .ref a → h.space[a]? = some .prot ∧ a ∈ h.strings
  | .proto _ _ _ _ _ _ _ _ _ _ _ _ name => ∀ a, name = .ref a → h.space[a]? = some .prot ∧ a ∈ h.strings
  | .error .. => False
  | .cut _ => False
  | _ => True

/-- The heap after start-up: everything is in the protected region, which refers only to itself. -/
structure Heap.Boot (h : Heap) : Prop where
  space : h.space = List.replicate h.mem.length .prot
  objs : ∀ (a : Nat) c, h.mem[a]? = some c → ∃ o, c = .obj o ∧ h.Supported o
  closed : ∀ (a : Nat) o b, h.mem[a]? = some (.obj o) → Val.ref b ∈ o.vals → b < h.mem.length
  roots : ∀ b, Val.ref b ∈ h.roots → b < h.mem.length
  store : h.store = []
  strings : ∀ s ∈ h.strings, ∃ chars, h.mem[s]? = some (.obj (.raw chars))

/-- One step of such a program. -/
inductive Step : Heap → Heap → Prop
  | alloc {h} (o : Obj) : h.Holds o → h.Supported o → Step h (h.alloc o)
  | intern {h} (chars) : Step h (h.intern chars)
  | load {h a v o r} : Val.ref a ∈ h.roots → Resolves h.mem a v → h.mem[v]? = some (.obj o) → r ∈ o.vals →
      Step h { h with roots := r :: h.roots }
  | forget {h roots} : roots ⊆ h.roots → Step h { h with roots }
  | write {h h' a v o} : Val.ref a ∈ h.roots → Resolves h.mem a v → v ∉ h.strings → h.HoldsAt v o → h.Supported o →
      (a = v ∨ h.isYoung v = true) → h.write a o = some h' → Step h h'
  | realloc {h h' a v o} : Val.ref a ∈ h.roots → Resolves h.mem a v → v ∉ h.strings → h.HoldsAt v o → h.Supported o →
      h.realloc a o = some h' → Step h h'
  | minor {h h'} : h.minor = some h' → Step h h'
  | major {h h'} : h.major = some h' → Step h h'

inductive Run : Heap → Prop
  | boot {h} : h.Boot → Run h
  | step {h h'} : Run h → Step h h' → Run h'

/-- The value found by following a path of fields from a root. -/
inductive At (m : Mem) (roots : List Val) : List Nat → Val → Prop
  | root {i : Nat} {r} : roots[i]? = some r → At m roots [i] r
  | field {p a v o} {i : Nat} {r} : At m roots p (.ref a) → Resolves m a v → m[v]? = some (.obj o) →
      o.vals[i]? = some r → At m roots (p ++ [i]) r

end Potion.Gc
