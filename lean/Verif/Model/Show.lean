import Verif.Model.Bytes
import Verif.Model.Decimal
import Verif.Spec.Show
/-!
Model of the `string` methods of nil, booleans, integers, strings, lists, tables and licks. The value is given as a tree
(`Spec/Show.lean`): an object that contains itself makes these methods recurse without end. Buffers are those of
`Model/Bytes.lean`; every block allocated has the contents `junk`. Method lookup (`potion_send(obj, PN_string)`) is by
the constructor of the value: the built-in methods, not replaced.
-/
namespace Potion.Show
open Potion Potion.Bytes Potion.Spec Potion.Dec

/-- string.c:420-432 `potion_bytes_string`: the contents of the buffer as a string (interning: C17). Simplified: an
embedded NUL can make it return another string. -/
def strB (b : Buf) : List Byte := b.mem.take b.len

/-- primitive.c:73-76 `potion_bool_string`: `PN_TEST`. -/
def boolString (b : Bool) : List Byte := if b then chars "true" else chars "false"

/-- string.c:384-386 `potion_bytes_obj_string` when the text of the object is `s`. -/
def objOut (junk : Nat → Byte) (b : Option Buf) (s : Option (List Byte)) : Option Buf :=
  match b, s with
  | some b, some s => append b junk s
  | _, _ => none

/-- string.c:361-382 `pn_printf` of a constant text. -/
def lit (junk : Nat → Byte) (b : Option Buf) (s : String) : Option Buf :=
  match b with
  | some b => printf b junk (chars s)
  | none => none

/-- `PN_STR_PTR(out)[0] = c`. -/
def poke0 (b : Option Buf) (c : Byte) : Option Buf :=
  match b with
  | some b => match writeAt b.mem 0 [c] with
    | some m => some { b with mem := m }
    | none => none
  | none => none

mutual
/-- The text of a value: primitive.c:83 (nil), 73-76, number.c:252-263, string.c (a string is its own text), table.c:23-37
`potion_table_string`, table.c:541-555 `potion_tuple_string`, lick.c:53-65 `potion_lick_string`. -/
def string (junk : Nat → Byte) : Datum → Option (List Byte)
  | .nil => some (chars "nil")
  | .bool b => some (boolString b)
  | .int i => some (numString (pnNum i))
  | .str s => some s
  | .list l =>
    let out := tupleLoop junk l 0 (byteStr2 junk (chars "("))
    let licks := lickCount l
    let all := decide (licks > 0) && decide (licks = dataLen l)
    let out := if all then poke0 out 0x5B#8 else out
    (lit junk out (if all then "]" else ")")).map strB
  | .table l => (lit junk (tableLoop junk l 0 (byteStr2 junk (chars "("))) ")").map strB
  | .lick n i a =>
    let out := objOut junk (byteStr2 junk []) (string junk n)
    let out := if i.isNil then out else objOut junk (lit junk out " ") (string junk i)
    let out := if a.isNil then out else objOut junk (lit junk out " ") (string junk a)
    out.map strB
/-- table.c:545-549. -/
def tupleLoop (junk : Nat → Byte) : Data → (i : Nat) → Option Buf → Option Buf
  | .nil, _, out => out
  | .cons v l, i, out =>
    let out := if i > 0 then lit junk out ", " else out
    tupleLoop junk l (i+1) (objOut junk out (string junk v))
/-- table.c:28-34. -/
def tableLoop (junk : Nat → Byte) : Pairs → (i : Nat) → Option Buf → Option Buf
  | .nil, _, out => out
  | .cons k v l, i, out =>
    let out := if i > 0 then lit junk out ", " else out
    tableLoop junk l (i+1) (objOut junk (lit junk (objOut junk out (string junk k)) "=") (string junk v))
/-- table.c:547. -/
def lickCount : Data → Nat
  | .nil => 0
  | .cons (.lick ..) l => lickCount l + 1
  | .cons _ l => lickCount l
/-- `PN_TUPLE_LEN`. -/
def dataLen : Data → Nat
  | .nil => 0
  | .cons _ l => dataLen l + 1
end

end Potion.Show
