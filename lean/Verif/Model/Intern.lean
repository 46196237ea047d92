import Verif.Model.Khash
import Verif.Model.Str
/-!
Model of string creation and interning (/repo/core/string.c 20-99, 420-432). String objects live in an append-only heap
and are identified by their number; the collector is not modelled here (see C34). The intern table is the khash table of
Model/Khash.lean with the C string as key (khash.h `kh_str_hash_func`/`kh_str_hash_equal` hash and compare the characters
up to the NUL) and the object as value.
-/
namespace Potion.Intern
open Potion

/-- The C string seen through a `char *`: the bytes before the first NUL. -/
def cstr (s : List Byte) : List Byte := s.takeWhile (· ≠ 0#8)

/-- khash.h `__luaS_hash_string`: Lua's string hash in 32-bit arithmetic (`fuel`: number of rounds, at most 32). -/
def luaHashLoop (s : List Byte) (step : Nat) : (fuel : Nat) → (l1 : Nat) → (h : BitVec 32) → BitVec 32
  | 0, _, h => h
  | f+1, l1, h =>
    if l1 ≥ step then
      luaHashLoop s step f (l1 - step) (h ^^^ ((h <<< 5) + (h >>> 2) + (s.getD (l1 - 1) 0#8).setWidth 32))
    else h
def luaHash (s : List Byte) : Nat :=
  let step := s.length / 32 + 1
  (luaHashLoop s step (s.length + 1) s.length (BitVec.ofNat 32 s.length)).toNat

/-- Interpreter state: string objects (contents including embedded NULs; `len` is the list's length; a NUL follows) and
the intern table `P->strings`. -/
structure St where
  heap : List (List Byte)
  tab : KH (List Byte) Nat

/-- string.c `potion_str_hash_init`: no strings. -/
def St.new : St := { heap := [], tab := KH.new }

/-- string.c:26-31 `potion_lookup_str`; the outer `none` is a non-terminating probe (excluded by C07). -/
def lookup (st : St) (c : List Byte) : Option (Option Nat) := st.tab.at luaHash (cstr c)

/-- PN_ALLOC_N of a string object with the given contents. -/
def alloc (st : St) (s : List Byte) : St × Nat := ({ st with heap := st.heap ++ [s] }, st.heap.length)

/-- string.c:20-24 `potion_add_str`: the object's characters up to the NUL are the key. -/
def addStr (st : St) (s : List Byte) (id : Nat) : Option St :=
  match st.tab.put luaHash (cstr s) id with
  | none => none
  | some t => some { st with tab := t }

/-- string.c:33-44 `potion_str`: `str` is a C string. -/
def str (st : St) (s : List Byte) : Option (St × Nat) :=
  match lookup st s with
  | none => none
  | some (some id) => some (st, id)
  | some none =>
    let (st1, id) := alloc st (cstr s)
    match addStr st1 (cstr s) id with
    | none => none
    | some st2 => some (st2, id)

/-- string.c:46-61 `potion_str2` of `len` bytes: allocates first, then looks up the C string in the new object. -/
def str2 (st : St) (s : List Byte) : Option (St × Nat) :=
  let (st1, id) := alloc st s
  match lookup st1 s with
  | none => none
  | some (some id') => some (st1, id')
  | some none => match addStr st1 s id with
    | none => none
    | some st2 => some (st2, id)

/-- string.c:63-79 `potion_strcat` of two C strings. -/
def strcat (st : St) (a b : List Byte) : Option (St × Nat) := str2 st (cstr a ++ cstr b)

/-- string.c:420-432 `potion_bytes_string` of a Bytes object with contents `s` (NUL-terminated): looks up first. -/
def bytesString (st : St) (s : List Byte) : Option (St × Nat) :=
  match lookup st s with
  | none => none
  | some (some id) => some (st, id)
  | some none =>
    let (st1, id) := alloc st s
    match addStr st1 s id with
    | none => none
    | some st2 => some (st2, id)

/-- string.c:279-289 `potion_str_add`: the bytes of both strings (all of them, embedded NULs too) are copied to a buffer
and `potion_str2` makes a string of it. The signature `str=S` makes the argument a string. Simplified: `malloc` succeeds
(for two empty strings this is `malloc(0)`, which on glibc is not NULL). -/
def strAdd (st : St) (a b : Nat) : Option (St × Nat) := do
  let sa ← st.heap[a]?
  let sb ← st.heap[b]?
  str2 st (sa ++ sb)

/-- string.c:81-97 `potion_str_format`: a new object, not interned. -/
def format (st : St) (s : List Byte) : Option (St × Nat) := some (alloc st (cstr s))

/-- Ways to create a string: from a C string, from a range of bytes (slices, identifiers, `+`), by concatenation, from a
Bytes object (string literals), by formatting. -/
inductive Make
  | str (s : List Byte)
  | str2 (s : List Byte)
  | cat (a b : List Byte)
  | ofBytes (s : List Byte)
  | format (s : List Byte)

/-- Perform a creation: new state and the resulting object. -/
def make (st : St) : Make → Option (St × Nat)
  | .str s => str st s
  | .str2 s => str2 st s
  | .cat a b => strcat st a b
  | .ofBytes s => bytesString st s
  | .format s => format st s

/-- A history of creations with their results. -/
def history (st : St) : List Make → Option (St × List Nat)
  | [] => some (st, [])
  | m :: ms => match make st m with
    | none => none
    | some (st1, id) => match history st1 ms with
      | none => none
      | some (st2, ids) => some (st2, id :: ids)

/-- An expression of strings: a created string, or `a + b`. -/
inductive Expr
  | lit (m : Make)
  | add (a b : Expr)

/-- Evaluation of a string expression: both operands, then `potion_str_add`. -/
def eval (st : St) : Expr → Option (St × Nat)
  | .lit m => make st m
  | .add a b => do
    let (st1, x) ← eval st a
    let (st2, y) ← eval st1 b
    strAdd st2 x y

/-- A history of evaluations with their results. -/
def evals (st : St) : List Expr → Option (St × List Nat)
  | [] => some (st, [])
  | e :: es => do
    let (st1, x) ← eval st e
    let (st2, xs) ← evals st1 es
    return (st2, x :: xs)

end Potion.Intern
