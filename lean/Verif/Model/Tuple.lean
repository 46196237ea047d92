import Verif.Model.Word
import Verif.Model.Khash
/-!
Model of Potion's lists (`PNTuple`, /repo/core/table.c lines 286-860, /repo/core/potion.h 278-297).

A tuple is a block of `alloc` words (`mem`, so `alloc = mem.length`) of which the first `len` are visible.
* A *write* outside the block is memory corruption: the operation returns `none`.
* A *read* outside the block yields whatever lies there: the parameter `g : Nat → α` (arbitrary) supplies that word, so
  theorems hold for every such content; `overread` predicates say when it happens.
* Fresh memory is `nil` (the birth region is freshly mapped and only bump-allocated: gc.c:122-134, potion.h:700-721).
Simplification: lengths are natural numbers (C: 32 bit; a list would need 2^31 elements to notice).
Forwarding of moved blocks (`PN_REALLOC` leaving a `PNFwd`) is modelled separately (`Model/Gc.lean`).
-/
namespace Potion
variable {α : Type}

/-- potion.h:477-482 `struct PNTuple`. -/
structure Tup (α : Type) where
  mem : List α
  len : Nat
  deriving DecidableEq, Repr

namespace Tup

/-- The visible elements. -/
def elems (t : Tup α) : List α := t.mem.take t.len

/-- A read of word `i`; outside the block it returns the unknown word `g i`. -/
def rd (g : Nat → α) (mem : List α) (i : Nat) : α := mem.getD i (g i)

/-- table.c:291-296 `potion_tuple_empty`: 3 cells preallocated. -/
def empty (nil : α) : Tup α := { mem := List.replicate 3 nil, len := 0 }
/-- table.c:298-301 `potion_tuple_with_size` (`list(n)`): `alloc = len = size`. -/
def withSize (nil : α) (n : Nat) : Tup α := { mem := List.replicate n nil, len := n }
/-- table.c:303-308 `potion_tuple_new`. -/
def new (nil v : α) : Tup α := { mem := [v, nil, nil], len := 1 }

/-- potion.h:740-760 `potion_gc_realloc` to `n` cells: never shrinks; new cells are nil. -/
def realloc (nil : α) (mem : List α) (n : Nat) : List α :=
  if n ≤ mem.length then mem else mem ++ List.replicate (n - mem.length) nil

/-- A write of word `i`. -/
def wr (mem : List α) (i : Nat) (v : α) : Option (List α) := if i < mem.length then some (mem.set i v) else none

/-- `PN_MEMMOVE_N(&set[dst], &set[src], PN, n)` (internal.h:23). -/
def memmove (g : Nat → α) (mem : List α) (dst src n : Nat) : Option (List α) :=
  if dst + n ≤ mem.length then
    some (mem.take dst ++ (List.range n).map (fun k => rd g mem (src + k)) ++ mem.drop (dst + n))
  else none

/-- table.c:310-320 `potion_tuple_push`. -/
def push (nil : α) (t : Tup α) (v : α) : Option (Tup α) :=
  let mem := if t.len ≥ t.mem.length then realloc nil t.mem (t.len * 2) else t.mem
  match wr mem t.len v with
  | none => none
  | some mem => some { mem, len := t.len + 1 }

/-- table.c:595-607 `potion_tuple_unshift`. -/
def unshift (nil : α) (g : Nat → α) (t : Tup α) (v : α) : Option (Tup α) :=
  let mem := if t.len ≥ t.mem.length then realloc nil t.mem (t.mem.length + 3) else t.mem
  match memmove g mem 1 0 t.len with
  | none => none
  | some mem =>
    match wr mem 0 v with
    | none => none
    | some mem => some { mem, len := t.len + 1 }

/-- table.c:560-568 `potion_tuple_pop`. On an empty list `len - 1` wraps to 2^32-1: `none`. -/
def pop (g : Nat → α) (t : Tup α) : Option (Tup α × α) :=
  if t.len = 0 then none else some ({ t with len := t.len - 1 }, rd g t.mem (t.len - 1))

/-- table.c:613-622 `potion_tuple_shift`. The memmove moves `len` (not `len-1`) words from `set[1]`. On an empty list
`len` wraps to 2^32-1 afterwards: `none`. -/
def shift (g : Nat → α) (t : Tup α) : Option (Tup α × α) :=
  if t.len = 0 then none
  else
    match memmove g t.mem 0 1 t.len with
    | none => none
    | some mem => some ({ mem, len := t.len - 1 }, rd g t.mem 0)

/-- Does `shift` read outside its block? (words 1..len) -/
def shiftOverread (t : Tup α) : Prop := t.mem.length < 1 + t.len

/-- table.c:365-371 `potion_tuple_at`: `none` = wild read (index below `-len`). -/
def at' (nil : α) (t : Tup α) (i : Int) : Option α :=
  let i := if i < 0 then i + t.len else i
  if i ≥ t.len then some nil
  else if i < 0 then none
  else t.mem[i.toNat]?

/-- Result of `put`: still a list, or converted to a table. -/
inductive PutRes (α : Type) where
  | tuple (t : Tup α)
  | table (h : KH PN α)

/-- table.c:576-589 `potion_tuple_put` with an integer key. `none` = wild write (index below `-len`) . -/
def put (nil : α) (hash : PN → Nat) (t : Tup α) (key : Int) (v : α) : Option (PutRes α) :=
  let i := if key < 0 then key + t.len else key
  if i < t.len then
    if i < 0 then none
    else match wr t.mem i.toNat v with
      | none => none
      | some mem => some (.tuple { t with mem })
  else if i = t.len then
    match t.push nil v with
    | none => none
    | some t' => some (.tuple t')
  else
    match KH.cast hash (fun i => pnNum (i : Int)) t.elems with
    | none => none
    | some h => match h.put hash (pnNum key) v with
      | none => none
      | some h' => some (.table h')

/-- table.c:377-385 `potion_tuple_clone`: a block of exactly `len` cells. -/
def clone (t : Tup α) : Tup α := { mem := t.mem.take t.len, len := t.len }

/-- table.c:403-433 `potion_tuple_slice`; `e = none` means no end given. Result: `none` = wild read before the block or
allocation of a negative size, `some none` = nil, `some (some l)`: the copied words (those outside the visible part come
from `rd`). -/
def slice (g : Nat → α) (t : Tup α) (start : Int) (e : Option Int) : Option (Option (List α)) :=
  let len : Int := t.len
  let i := if start < 0 then len + start else start
  let (i, l) : Int × Int :=
    match e with
    | none => (i, len - i)
    | some e =>
      let e := if e < 0 then len + e else e
      let (i, l) := if e - i < 0 then (e, (i - e) + 1) else (i, e - i + 1)
      (i, if l > len then len else l)
  if l = 0 ∨ i ≥ len then some none
  else if i < 0 ∨ l < 0 then none
  else some (some ((List.range l.toNat).map fun k => rd g t.mem (i.toNat + k)))

/-- `PN_SIZE i = PN_INT(index)` (table.c:671, 692): conversion to 32-bit unsigned. -/
def toSize (i : Int) : Nat := (i % 2^32).toNat

/-- table.c:688-699 `potion_tuple_delete` (in place). -/
def delete (g : Nat → α) (t : Tup α) (index : Int) : Option (Tup α) :=
  if t.len ≠ 0 then
    let i := toSize index
    if i < t.len then
      match memmove g t.mem i (i + 1) (t.len - i) with
      | none => none
      | some mem => some { mem, len := t.len - 1 }
    else some { t with len := t.len - 1 }
  else some t

/-- table.c:667-682 `potion_tuple_remove`: `delete` on a clone (an empty receiver is returned itself). -/
def remove (g : Nat → α) (t : Tup α) (index : Int) : Option (Tup α) :=
  if t.len ≠ 0 then t.clone.delete g index else some t

/-- table.c:508-512, 531-536 `potion_tuple_first`, `potion_tuple_last`. -/
def first (nil : α) (t : Tup α) : Option α := if t.len < 1 then some nil else t.mem[0]?
def last (nil : α) (t : Tup α) : Option α := if t.len < 1 then some nil else t.mem[t.len - 1]?

/-- table.c:336-342 `potion_tuple_find`: index of the first equal element. -/
def find [DecidableEq α] (t : Tup α) (v : α) : Option Nat := t.elems.findIdx? (· = v)

/-- table.c:346-353 `potion_tuple_push_unless`. -/
def pushUnless [DecidableEq α] (nil : α) (t : Tup α) (v : α) : Option (Tup α × Nat) :=
  match t.find v with
  | some i => some (t, i)
  | none => match t.push nil v with
    | none => none
    | some t' => some (t', t'.len - 1)

/-- One list operation of a history. -/
inductive Op (α : Type) where
  | push (v : α)
  | unshift (v : α)
  | pop
  | shift

/-- Apply an operation; the second component is the popped/shifted element. -/
def apply (nil : α) (g : Nat → α) (t : Tup α) : Op α → Option (Tup α × Option α)
  | .push v => (t.push nil v).map (·, none)
  | .unshift v => (t.unshift nil g v).map (·, none)
  | .pop => (t.pop g).map fun (t, v) => (t, some v)
  | .shift => (t.shift g).map fun (t, v) => (t, some v)

/-- Run a history, collecting the returned elements. Each step may see different memory contents `g k` outside blocks. -/
def run (nil : α) (g : Nat → Nat → α) : Tup α → List (Op α) → Option (Tup α × List (Option α))
  | t, [] => some (t, [])
  | t, op :: ops =>
    match t.apply nil (g ops.length) op with
    | none => none
    | some (t', o) =>
      match run nil g t' ops with
      | none => none
      | some (t'', os) => some (t'', o :: os)

/-! ### Iteration with callbacks. A callback is a function of the interpreter state `σ` (everything except the list
being traversed, which it must not change). -/

/-- table.c:439-450 `potion_tuple_each` (`PN_TUPLE_EACH`, potion.h:288-297). -/
def eachLoop {σ : Type} (f : σ → α → Nat → σ) (t : Tup α) (g : Nat → α) : (n : Nat) → (i : Nat) → σ → σ
  | 0, _, s => s
  | n+1, i, s => eachLoop f t g n (i+1) (f s (rd g t.mem i) i)
def each {σ : Type} (f : σ → α → Nat → σ) (g : Nat → α) (t : Tup α) (s : σ) : σ := eachLoop f t g t.len 0 s

/-- table.c:456-464 `potion_tuple_map`: results stored at the same index of a new list of the same length. -/
def mapLoop {σ β : Type} (f : σ → α → σ × β) (t : Tup α) (g : Nat → α) : (n : Nat) → (i : Nat) → σ → List β → Option (σ × List β)
  | 0, _, s, out => some (s, out)
  | n+1, i, s, out =>
    let (s', r) := f s (rd g t.mem i)
    match wr out i r with
    | none => none
    | some out' => mapLoop f t g n (i+1) s' out'
def map {σ β : Type} (nil : β) (f : σ → α → σ × β) (g : Nat → α) (t : Tup α) (s : σ) : Option (σ × Tup β) :=
  match mapLoop f t g t.len 0 s (List.replicate t.len nil) with
  | none => none
  | some (s', out) => some (s', { mem := out, len := t.len })

/-- table.c:472-481 `potion_tuple_reduce`. -/
def reduceLoop {σ : Type} [DecidableEq α] (nil : α) (f : σ → α → α → σ × α) (t : Tup α) (g : Nat → α) :
    (n : Nat) → (i : Nat) → σ → α → σ × α
  | 0, _, s, acc => (s, acc)
  | n+1, i, s, acc =>
    if i = 0 ∧ acc = nil then reduceLoop nil f t g n (i+1) s (rd g t.mem i)
    else let (s', acc') := f s acc (rd g t.mem i); reduceLoop nil f t g n (i+1) s' acc'
def reduce {σ : Type} [DecidableEq α] (nil : α) (f : σ → α → α → σ × α) (g : Nat → α) (t : Tup α) (s : σ) (init : α) : σ × α :=
  reduceLoop nil f t g t.len 0 s init

/-- table.c:489-503 `potion_tuple_filter`: pushes the kept elements on a new empty list. -/
def filterLoop {σ : Type} (nil : α) (p : σ → α → Nat → σ × Bool) (t : Tup α) (g : Nat → α) :
    (n : Nat) → (i : Nat) → σ → Tup α → Option (σ × Tup α)
  | 0, _, s, out => some (s, out)
  | n+1, i, s, out =>
    let v := rd g t.mem i
    let (s', b) := p s v i
    if b then
      match out.push nil v with
      | none => none
      | some out' => filterLoop nil p t g n (i+1) s' out'
    else filterLoop nil p t g n (i+1) s' out
def filter {σ : Type} (nil : α) (p : σ → α → Nat → σ × Bool) (g : Nat → α) (t : Tup α) (s : σ) : Option (σ × Tup α) :=
  filterLoop nil p t g t.len 0 s (empty nil)

/-- table.c:518-526 `potion_tuple_join`: `str` renders an element, appended bytes are concatenated; a nil separator is
skipped. -/
def joinLoop {β : Type} (str : α → List β) (sep : List β) (t : Tup α) (g : Nat → α) : (n : Nat) → (i : Nat) → List β → List β
  | 0, _, out => out
  | n+1, i, out =>
    let out := if i > 0 then out ++ sep else out
    joinLoop str sep t g n (i+1) (out ++ str (rd g t.mem i))
def join {β : Type} (str : α → List β) (sep : List β) (g : Nat → α) (t : Tup α) : List β := joinLoop str sep t g t.len 0 []

end Tup
end Potion
