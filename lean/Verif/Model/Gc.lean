/-!
Model of the collector (/repo/core/gc.c 56-265, 305-620; /repo/core/gc.h; /repo/core/potion.h 300-530, 570-574).
Memory is a list of cells, one per object, in the order of their addresses; a cell's index is its address. Copies are
appended at the end, as `old_cur` moves up. Which addresses lie in the space being evacuated (the birth region for a
minor collection; birth and old region for a major one; never the protected region) is given by a predicate `isFrom`.
Simplifications: sizes are those of the structs, so copying never runs out of room; root words are references to objects
or immediates (the code scans the C stack conservatively); continuations are left out; marking an instance also updates
the entry of its class in `P->vts`, which is left out because that entry is itself traced; the intern table's own
storage is not modelled, only its keys.
-/
namespace Potion.Gc

abbrev Addr := Nat

/-- A PN: an immediate (nil, booleans, integers) or the address of an object. -/
inductive Val
  | imm (w : Nat)
  | ref (a : Addr)
  deriving DecidableEq, Repr

/-- The objects, with the fields of their structs. `raw`: objects without references (strings, byte strings, doubles,
`PNData`, assembler buffers, the intern table). `cut`: an error of which only the first 16 bytes are left. -/
inductive Obj
  | weak (data : Val)
  | closure (code : List Nat) (sig name : Val) (data : List Val)
  | tuple (set : List Val)
  | state (info : List Nat) (strings lobby vts call callset input source line unclosed : Val)
  | file (info : List Nat) (path : Val)
  | vtable (info : List Nat) (name ivars methods metac ctor call callset : Val)
  | source (info : List Nat) (a0 a1 a2 line : Val)
  | proto (info : List Nat) (source sig stack paths locals upvals values protos debugs tree asmb name : Val)
  | table (info : List Nat) (entries : List (Option (Val × Val)))
  | lick (name attr inner : Val)
  | flex (items : List Val)
  | inst (type : Nat) (ivars : List Val)
  | error (parent message line chr excerpt : Val)
  | cut (parent : Val)
  | raw (info : List Nat)
  deriving DecidableEq, Repr

/-- Keys and values of the occupied buckets (gc.h GC_MINOR_UPDATE_TABLE, GC_MAJOR_UPDATE_TABLE). -/
def entryRefs : List (Option (Val × Val)) → List Val
  | [] => []
  | none :: l => entryRefs l
  | some (k, v) :: l => k :: v :: entryRefs l
def putEntries : List (Option (Val × Val)) → List Val → List (Option (Val × Val))
  | [], _ => []
  | none :: l, vs => none :: putEntries l vs
  | some _ :: l, k :: v :: vs => some (k, v) :: putEntries l vs
  | some e :: l, vs => some e :: putEntries l vs

/-- gc.c:415-510 `potion_mark_minor` and 512-620 `potion_mark_major`: the fields they update, in order. Errors have no
case; the names of closures and functions are not updated. -/
def Obj.refs : Obj → List Val
  | .weak d => [d]
  | .closure _ sig _ data => sig :: data
  | .tuple set => set
  | .state _ a b c d e f g h i => [a, b, c, d, e, f, g, h, i]
  | .file _ p => [p]
  | .vtable _ a b c d e f g => [a, b, c, d, e, f, g]
  | .source _ a b c l => [a, b, c, l]
  | .proto _ a b c d e f g h i j k _ => [a, b, c, d, e, f, g, h, i, j, k]
  | .table _ es => entryRefs es
  | .lick a b c => [a, b, c]
  | .flex l => l
  | .inst _ l => l
  | .error .. => []
  | .cut _ => []
  | .raw _ => []

/-- Storing the updated fields back. -/
def Obj.put : Obj → List Val → Obj
  | .weak _, [d] => .weak d
  | .closure c _ n _, sig :: data => .closure c sig n data
  | .tuple _, set => .tuple set
  | .state x .., [a, b, c, d, e, f, g, h, i] => .state x a b c d e f g h i
  | .file x _, [p] => .file x p
  | .vtable x .., [a, b, c, d, e, f, g] => .vtable x a b c d e f g
  | .source x .., [a, b, c, l] => .source x a b c l
  | .proto x _ _ _ _ _ _ _ _ _ _ _ n, [a, b, c, d, e, f, g, h, i, j, k] => .proto x a b c d e f g h i j k n
  | .table x es, vs => .table x (putEntries es vs)
  | .lick .., [a, b, c] => .lick a b c
  | .flex _, l => .flex l
  | .inst t _, l => .inst t l
  | o, _ => o

/-- gc.c:305-392 `potion_type_size` and 394-411 `potion_gc_copy`: the whole struct is copied, except for errors, whose
type has no case, so the minimum of 16 bytes is taken. -/
def Obj.copy : Obj → Obj
  | .error p _ _ _ _ => .cut p
  | o => o

/-- potion.h:309-317 and gc.c:407-409: an object, or a forwarding pointer left by reallocation (POTION_FWD) or by
copying (POTION_COPIED), or memory that has been given back. -/
inductive Cell
  | obj (o : Obj)
  | fwd (a : Addr)
  | copied (a : Addr)
  | free
  deriving DecidableEq, Repr

abbrev Mem := List Cell

/-- potion.h:570-574 `potion_fwd`. `none`: a pointer to memory that is not there, or an endless chain. -/
def fwd (m : Mem) : (fuel : Nat) → Addr → Option Addr
  | 0, _ => none
  | f+1, a => match m[a]? with
    | none => none
    | some .free => none
    | some (.fwd b) => fwd m f b
    | some _ => some a

/-- gc.h GC_MINOR_UPDATE, GC_MAJOR_UPDATE with GC_FORWARD and gc.c:394-411 `potion_gc_copy`. -/
def upd (isFrom : Addr → Bool) (m : Mem) : Val → Option (Mem × Val)
  | .imm w => some (m, .imm w)
  | .ref a => match fwd m (m.length + 1) a with
    | none => none
    | some v =>
      if isFrom v then
        match m[v]? with
        | some (.copied n) => some (m, .ref n)
        | some (.obj o) => some (m.set v (.copied m.length) ++ [.obj o.copy], .ref m.length)
        | _ => none
      else some (m, .ref a)

/-- Updating several words in order (gc.c:58-94 `pngc_mark_array` for the roots; the fields of an object). -/
def updList (isFrom : Addr → Bool) : Mem → List Val → Option (Mem × List Val)
  | m, [] => some (m, [])
  | m, r :: rs => match upd isFrom m r with
    | none => none
    | some (m1, r') => match updList isFrom m1 rs with
      | none => none
      | some (m2, rs') => some (m2, r' :: rs')

/-- gc.c:413-620 `potion_mark_minor`, `potion_mark_major` of the cell at an address. -/
def scan (isFrom : Addr → Bool) (m : Mem) (a : Addr) : Option Mem :=
  match m[a]? with
  | none => none
  | some (.obj o) => match updList isFrom m o.refs with
    | none => none
    | some (m', vs) => some (m'.set a (.obj (o.put vs)))
  | some (.fwd b) => match upd isFrom m (.ref b) with
    | some (m', .ref b') => some (m'.set a (.fwd b'))
    | _ => none
  | some (.copied b) => match upd isFrom m (.ref b) with
    | some (m', .ref b') => some (m'.set a (.copied b'))
    | _ => none
  | some .free => none

def scanList (isFrom : Addr → Bool) : Mem → List Addr → Option Mem
  | m, [] => some m
  | m, a :: as => match scan isFrom m a with
    | none => none
    | some m' => scanList isFrom m' as

/-- gc.c:174-175 and 235-236, the Cheney loop: `k` is `scanptr`, the end of the list is `old_cur`. -/
def cheney (isFrom : Addr → Bool) : (fuel : Nat) → (k : Nat) → Mem → Option Mem
  | 0, _, _ => none
  | f+1, k, m =>
    if k < m.length then
      match scan isFrom m k with
      | none => none
      | some m' => cheney isFrom f (k + 1) m'
    else some m

/-- gc.h GC_MINOR_STRINGS, GC_MAJOR_STRINGS: an interned string that has been copied is replaced by the copy, one that has
not is removed. Keys are read without following forwarding pointers; strings are never reallocated. -/
def sweep (isFrom : Addr → Bool) (m : Mem) : List Addr → List Addr
  | [] => []
  | v :: l =>
    if isFrom v then
      match m[v]? with
      | some (.copied n) => n :: sweep isFrom m l
      | _ => sweep isFrom m l
    else v :: sweep isFrom m l

/-- gc.h DEL_BIRTH_REGION, gc.c:240 `pngc_page_delete`: the evacuated space is given back. -/
def release (isFrom : Addr → Bool) (m : Mem) : Mem := m.mapIdx fun a c => if isFrom a then .free else c

/-- What a collection leaves: memory, updated roots, interned strings. -/
structure After where
  mem : Mem
  roots : List Val
  strings : List Addr

/-- gc.c:144-186 `potion_gc_minor`: roots, then the intern table, then the objects in the store list, then the copies.
`young`: the birth region without the protected part. -/
def minor (young : Addr → Bool) (fuel : Nat) (m : Mem) (roots : List Val) (store : List Addr) (strings : List Addr) :
    Option After :=
  match updList young m roots with
  | none => none
  | some (m1, roots') =>
    let strings' := sweep young m1 strings
    match scanList young m1 store with
    | none => none
    | some m2 => match cheney young fuel m.length m2 with
      | none => none
      | some m3 => some ⟨release young m3, roots', strings'⟩

/-- gc.c:188-265 `potion_gc_major`: roots, then everything in the protected region, then the copies, then the intern table.
`prot` are the addresses of the protected region, in order. -/
def major (isFrom : Addr → Bool) (fuel : Nat) (m : Mem) (roots : List Val) (prot : List Addr) (strings : List Addr) :
    Option After :=
  match updList isFrom m roots with
  | none => none
  | some (m1, roots') => match scanList isFrom m1 prot with
    | none => none
    | some m2 => match cheney isFrom fuel m.length m2 with
      | none => none
      | some m3 => some ⟨release isFrom m3, roots', sweep isFrom m3 strings⟩

end Potion.Gc
