import Verif.Model.Gc
import Mathlib.Data.List.Forall2
/-!
What a collection must preserve: the graph of live objects. Forwarding pointers are not part of it: a reference stands for
the object it resolves to.
-/
namespace Potion.Gc

/-- A reference to `a` resolves to the object at `v`. -/
inductive Resolves (m : Mem) : Addr → Addr → Prop
  | here {a o} : m[a]? = some (.obj o) → Resolves m a a
  | step {a b v} : m[a]? = some (.fwd b) → Resolves m b v → Resolves m a v

/-- Everything in an object that is a reference, and everything that is not. -/
def Obj.vals : Obj → List Val
  | .weak d => [d]
  | .closure _ sig name data => sig :: name :: data
  | .tuple set => set
  | .state _ a b c d e f g h i => [a, b, c, d, e, f, g, h, i]
  | .file _ p => [p]
  | .vtable _ a b c d e f g => [a, b, c, d, e, f, g]
  | .source _ a b c l => [a, b, c, l]
  | .proto _ a b c d e f g h i j k n => [a, b, c, d, e, f, g, h, i, j, k, n]
  | .table _ es => entryRefs es
  | .lick a b c => [a, b, c]
  | .flex l => l
  | .inst _ l => l
  | .error a b c d e => [a, b, c, d, e]
  | .cut p => [p]
  | .raw _ => []
inductive Shape
  | mk (kind : Nat) (info : List Nat) (occupied : List Bool)
  deriving DecidableEq
def Obj.shape : Obj → Shape
  | .weak _ => .mk 0 [] []
  | .closure c _ _ d => .mk 1 (d.length :: c) []
  | .tuple s => .mk 2 [s.length] []
  | .state i .. => .mk 3 i []
  | .file i _ => .mk 4 i []
  | .vtable i .. => .mk 5 i []
  | .source i .. => .mk 6 i []
  | .proto i .. => .mk 7 i []
  | .table i es => .mk 8 i (es.map Option.isSome)
  | .lick .. => .mk 9 [] []
  | .flex l => .mk 10 [l.length] []
  | .inst t l => .mk 11 [t, l.length] []
  | .error .. => .mk 12 [] []
  | .cut _ => .mk 13 [] []
  | .raw i => .mk 14 i []

/-- An object's references. -/
def Cell.vals : Cell → List Val
  | .obj o => o.vals
  | .fwd a => [.ref a]
  | .copied a => [.ref a]
  | .free => []

/-- The live objects: those the roots refer to, those outside the evacuated space, and those a live object refers to. -/
inductive Live (isFrom : Addr → Bool) (m : Mem) (roots : List Val) : Addr → Prop
  | root {a v} : Val.ref a ∈ roots → Resolves m a v → Live isFrom m roots v
  | kept {a v} : isFrom a = false → Resolves m a v → Live isFrom m roots v
  | step {v o a w} : Live isFrom m roots v → m[v]? = some (.obj o) → Val.ref a ∈ o.vals → Resolves m a w →
      Live isFrom m roots w

/-- The value `r` before the collection and `r'` after it are the same: equal immediates, or references to an object
and to its image. -/
inductive Corr (m m' : Mem) (φ : Addr → Addr) : Val → Val → Prop
  | imm (w) : Corr m m' φ (.imm w) (.imm w)
  | ref {a v a'} : Resolves m a v → Resolves m' a' (φ v) → Corr m m' φ (.ref a) (.ref a')

/-- `m'` holds an isomorphic copy of the live part of `m`: objects keep their shape and contents, distinct objects stay
distinct, and the roots agree. -/
structure Preserved (live : Addr → Prop) (m m' : Mem) (roots roots' : List Val) (φ : Addr → Addr) : Prop where
  top : List.Forall₂ (Corr m m' φ) roots roots'
  objs : ∀ v o, live v → m[v]? = some (.obj o) → ∃ o', m'[φ v]? = some (.obj o') ∧ o'.shape = o.shape ∧
    List.Forall₂ (Corr m m' φ) o.vals o'.vals
  inj : ∀ v w, live v → live w → φ v = φ w → v = w

end Potion.Gc
