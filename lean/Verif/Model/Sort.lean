import Verif.Model.Word
import Verif.Model.Tuple
/-!
Model of reversing, sorting, searching and comparing lists (/repo/core/table.c 644-915, /repo/core/primitive.c 22-61).
A list's block is a `List PN` of machine words. Any access outside the block yields `none`.
Simplification: the block is exactly the visible part of the list (accesses to spare capacity also count as errors).
-/
namespace Potion.Sorting
open Potion

/-- A checked read of a cell. -/
def rd (m : List PN) (i : Nat) : Option PN := m[i]?
/-- A checked `set[a] ^= set[b]`. -/
def xorAt (m : List PN) (a b : Nat) : Option (List PN) :=
  match m[a]?, m[b]? with
  | some x, some y => some (m.set a (x ^^^ y))
  | _, _ => none

/-- table.c:657-661 `SWAP(a,b)`: three xor updates, skipped when the indices are equal. -/
def swap (m : List PN) (a b : Nat) : Option (List PN) :=
  if a ≠ b then
    match xorAt m a b with
    | none => none
    | some m1 => match xorAt m1 b a with
      | none => none
      | some m2 => xorAt m2 a b
  else some m

/-- table.c:647-655 `potion_tuple_reverse`: writes `tuple[len-1-i] = self[i]`; `n` iterations left. -/
def reverseLoop (m : List PN) : (n : Nat) → (i : Nat) → (out : List PN) → Option (List PN)
  | 0, _, out => some out
  | n+1, i, out =>
    match rd m i with
    | none => none
    | some x =>
      match Tup.wr out (m.length - 1 - i) x with
      | none => none
      | some out' => reverseLoop m n (i+1) out'
def reverse (m : List PN) : Option (List PN) := reverseLoop m m.length 0 (List.replicate m.length PN_NIL)

/-- table.c:704-716 `potion_tuple_nreverse`: `for (i = 0; i < len/2; i++) SWAP(len-i-1, i)`. -/
def nreverseLoop (len : Nat) : (n : Nat) → (i : Nat) → List PN → Option (List PN)
  | 0, _, m => some m
  | n+1, i, m =>
    match swap m (len - i - 1) i with
    | none => none
    | some m' => nreverseLoop len n (i+1) m'
def nreverse (m : List PN) : Option (List PN) := nreverseLoop m.length (m.length / 2) 0 m

/-- The `cmp` argument of the sorting methods. A closure is represented by the integer its call returns (simplification:
a pure function of its two arguments; table.c:779 passes the sort method's own closure instead of `cmp` as the callee,
which only functions that ignore it survive). -/
inductive Mode where
  | uniq                          -- PN_NIL
  | asc                           -- PN_TRUE
  | desc                          -- PN_FALSE
  | by (f : PN → PN → Int)        -- closure

/-- table.c:761-784: is `x` moved in front of the pivot? (`h` is `PN_UNIQ`.) -/
def before (h : PN → Nat) : Mode → PN → PN → Bool
  | .uniq, x, p => decide (h x ≤ h p)
  | .asc, x, p => decide (x.toNat ≤ p.toNat)
  | .desc, x, p => decide (x.toNat > p.toNat)
  | .by f, x, p => decide (f x p > 0)

/-- table.c:761-783: exclusive upper bound of the partition loop; `to-1` in the nil mode, `to` in the others. -/
def hiBound : Mode → Nat → Nat
  | .uniq, to => to - 1
  | _, to => to

/-- table.c:762-783: the partition loop, `n` iterations left, returns block and `index`. -/
def partLoop (keep : PN → Bool) : (n : Nat) → (i index : Nat) → List PN → Option (List PN × Nat)
  | 0, _, index, m => some (m, index)
  | n+1, i, index, m =>
    match rd m i with
    | none => none
    | some x =>
      if keep x then
        match swap m i index with
        | none => none
        | some m' => partLoop keep n (i+1) (index+1) m'
      else partLoop keep n (i+1) index m

/-- table.c:742-790 `potion_sort_internal`; fuel bounds the recursion depth. -/
def sortInternal (h : PN → Nat) (mode : Mode) : (fuel : Nat) → (src to : Nat) → List PN → Option (List PN)
  | 0, src, to, m => if src < to then none else some m
  | fuel+1, src, to, m =>
    if src < to then
      let mid := src + (to - src) / 2
      match rd m mid with
      | none => none
      | some pivot =>
        match swap m mid to with
        | none => none
        | some m1 =>
          match partLoop (fun x => before h mode x pivot) (hiBound mode to - src) src src m1 with
          | none => none
          | some (m2, index) =>
            match swap m2 index to with
            | none => none
            | some m3 =>
              match (if index > 0 then sortInternal h mode fuel src (index - 1) m3 else some m3) with
              | none => none
              | some m4 => sortInternal h mode fuel (index + 1) to m4
    else some m

/-- `len - 1` in 32-bit unsigned arithmetic (table.c:813, 874). -/
def lenMinus1 (len : Nat) : Nat := (len + (2^32 - 1)) % 2^32

/-- table.c:803-815 `potion_tuple_sort`, on the clone. The fuel is the length of the list: recursion depth never
exceeds it (proved: `sort` never fails on a non-empty list). -/
def sort (h : PN → Nat) (mode : Mode) (m : List PN) : Option (List PN) :=
  sortInternal h mode m.length 0 (lenMinus1 m.length) m

/-- table.c:832-865: must the element at `j-1` (first argument) move behind the one at `j`? -/
def gt (h : PN → Nat) : Mode → PN → PN → Bool
  | .uniq, x, y => decide (h x > h y)
  | .asc, x, y => decide (x.toNat > y.toNat)
  | .desc, x, y => decide (x.toNat < y.toNat)
  | .by f, x, y => decide (f x y > 0)

/-- table.c:834-837 etc.: the inner `while (j > 0 && ...) { SWAP(j, j-1); j--; }`. -/
def sinkLoop (g : PN → PN → Bool) : (j : Nat) → List PN → Option (List PN)
  | 0, m => some m
  | j+1, m =>
    match rd m j, rd m (j+1) with
    | some x, some y =>
      if g x y then
        match swap m (j+1) j with
        | none => none
        | some m' => sinkLoop g j m'
      else some m
    | _, _ => none

/-- table.c:832 etc.: the outer `for (i = 1; i < t->len; i++)`, `n` iterations left. -/
def insLoop (g : PN → PN → Bool) : (n : Nat) → (i : Nat) → List PN → Option (List PN)
  | 0, _, m => some m
  | n+1, i, m =>
    match sinkLoop g i m with
    | none => none
    | some m' => insLoop g n (i+1) m'

/-- table.h:13-15 `MAX_INS_SORT`. -/
def MAX_INS_SORT : Nat := 10

/-- table.c:824-878 `potion_tuple_ins_sort`. -/
def insSort (h : PN → Nat) (mode : Mode) (m : List PN) : Option (List PN) :=
  if m.length < MAX_INS_SORT then insLoop (gt h mode) (m.length - 1) 1 m
  else sortInternal h mode m.length 0 (lenMinus1 m.length) m

/-- table.c:726-738: the loop of `potion_tuple_bsearch` (C `long`s as integers). The outer `none` is an access outside
the list. -/
def bsearchLoop (h : PN → Nat) (m : List PN) (xu : Nat) : (fuel : Nat) → (i j : Int) → Option Int
  | 0, i, j => if i ≤ j then none else some (-1)
  | fuel+1, i, j =>
    if i ≤ j then
      let k := j + (i - j).tdiv 2
      if k < 0 then none else
      match m[k.toNat]? with
      | none => none
      | some y =>
        let u := h y
        if u = xu then some k
        else if u > xu then bsearchLoop h m xu fuel i (k - 1)
        else bsearchLoop h m xu fuel (k + 1) j
    else some (-1)

/-- table.c:722-739 `potion_tuple_bsearch`; `j = t->len - 1` is computed in 32-bit unsigned arithmetic before it is
widened to `long`. Fuel: the loop halves its interval, `len` rounds always suffice. -/
def bsearch (h : PN → Nat) (m : List PN) (x : PN) : Option Int :=
  bsearchLoop h m (h x) m.length 0 (lenMinus1 m.length)

end Potion.Sorting
