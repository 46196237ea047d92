import Verif.Model.Word
import Verif.Model.Bytes
/-!
Model of the bytecode file format: `potion_source_dumpbc` and `potion_source_load` (/repo/core/compile.c 1114-1260).
Boxed doubles are an abstract type `D`, with the text `potion_num_string` makes of them and what `potion_strtod` reads.
-/
namespace Potion.Dump
open Potion Potion.Bytes

abbrev Byte := BitVec 8

/-- A constant: an immediate word, a string, a boxed double, or (a pointer to) any other object. -/
inductive Const (D : Type)
  | imm (w : PN)
  | str (s : List Byte)
  | dbl (d : D)
  | ptr
  deriving DecidableEq

/-- potion.h:454-471 `struct PNProto`: the fields that are written. -/
inductive Fn (D : Type)
  | mk (name source : Const D) (sig : List (Const D)) (stack : Const D) (values paths locals upvals : List (Const D))
      (protos : List (Fn D)) (asmb : List Byte)

/-- number.c `potion_num_string`, `potion_strtod`. -/
structure Fmt (D : Type) where
  text : D → List Byte
  read : List Byte → D

variable {D : Type}

/-- compile.c:1193 `WRITE_PN`. -/
def writePN (w : PN) : List Byte := leBytes 8 w.toNat

/-- compile.c:1196, 1202: `PN count = (PN_STR_LEN(val)+1) << 4`, computed with 32-bit lengths. -/
def strCount (len : Nat) : PN := BitVec.ofNat 64 ((len + 1) * 16 % 2^32)

/-- compile.c:1194-1211 `WRITE_CONST`. -/
def writeConst (F : Fmt D) : Const D → List Byte
  | .str s => writePN (strCount s.length) ++ s
  | .dbl d => writePN (strCount (F.text d).length ||| 2#64) ++ F.text d
  | .imm w => writePN w
  | .ptr => writePN PN_NIL

/-- compile.c:1212-1218 `WRITE_VALUES`: the length is written as one byte. -/
def writeValues (F : Fmt D) (l : List (Const D)) : List Byte := BitVec.ofNat 8 l.length :: l.flatMap (writeConst F)

mutual
/-- compile.c:1230-1249 `potion_proto_dumpbc`: the bytes it writes. -/
def dumpFn (F : Fmt D) : Fn D → List Byte
  | .mk name source sig stack values paths locals upvals protos asmb =>
    writeConst F name ++ (writeConst F source ++ (writeValues F sig ++ (writeConst F stack ++ (writeValues F values ++
    (writeValues F paths ++ (writeValues F locals ++ (writeValues F upvals ++ (BitVec.ofNat 8 protos.length :: (dumpFns F protos ++
    (writePN (BitVec.ofNat 64 asmb.length) ++ asmb))))))))))
/-- compile.c:1219-1222 `WRITE_PROTOS`. -/
def dumpFns (F : Fmt D) : List (Fn D) → List Byte
  | [] => []
  | f :: fs => dumpFn F f ++ dumpFns F fs
end

/-- internal.h:70-77, potion.h:42-43, config.mak:3-4: the header (version 0.3, 8-byte words). -/
def header : List Byte := [0x70, 0x07, 0x08, 0x6e, 0, 3, 0x79, 8]

/-- string.c:342-348: the room in `potion_bytes(P, 8192)`. -/
def capacity : Nat := bytesAlign 8193

/-- compile.c:1254-1267 `potion_source_dumpbc`: the contents of the resulting bytes. Writing past the end of the buffer is
`none`. -/
def dump (F : Fmt D) (f : Fn D) : Option (List Byte) :=
  if (header ++ dumpFn F f).length ≤ capacity then some (header ++ dumpFn F f) else none

/-- A little-endian word. -/
def leValue : List Byte → Nat
  | [] => 0
  | b :: bs => b.toNat + 256 * leValue bs

/-- compile.c:1114 `READ_U8`. Reading past the end of the buffer is `none`, here and below. -/
def readU8 : List Byte → Option (Nat × List Byte)
  | [] => none
  | b :: bs => some (b.toNat, bs)

/-- compile.c:1115 `READ_PN`: eight bytes are read, and `pn` skipped. -/
def readPN (pn : Nat) (bs : List Byte) : Option (PN × List Byte) :=
  if 8 ≤ bs.length ∧ pn ≤ bs.length then some (BitVec.ofNat 64 (leValue (bs.take 8)), bs.drop pn) else none

/-- `len` bytes. -/
def readBytes (len : Nat) (bs : List Byte) : Option (List Byte × List Byte) :=
  if len ≤ bs.length then some (bs.take len, bs.drop len) else none

/-- compile.c:1116-1129 `READ_CONST`. The length of the text of a double is not passed on to `strtod` (number.c:25-28), which reads on as
long as there is more of a number. -/
def readConst (F : Fmt D) (pn : Nat) (bs : List Byte) : Option (Const D × List Byte) :=
  match readPN pn bs with
  | none => none
  | some (val, bs) =>
    if isPtr val then
      if (val &&& 2#64) != 0#64 then
        match readBytes (((val ^^^ 2#64) >>> 4) - 1#64).toNat bs with
        | none => none
        | some (_, bs') => some (.dbl (F.read bs), bs')
      else match readBytes ((val >>> 4) - 1#64).toNat bs with
        | none => none
        | some (s, bs) => some (.str s, bs)
    else some (.imm val, bs)

/-- The loop of compile.c:1136-1139 `READ_VALUES`. -/
def readConsts (F : Fmt D) (pn : Nat) : (count : Nat) → List Byte → Option (List (Const D) × List Byte)
  | 0, bs => some ([], bs)
  | n+1, bs => match readConst F pn bs with
    | none => none
    | some (c, bs) => match readConsts F pn n bs with
      | none => none
      | some (cs, bs) => some (c :: cs, bs)

/-- compile.c:1132-1139 `READ_TUPLE`, `READ_VALUES`. -/
def readValues (F : Fmt D) (pn : Nat) (bs : List Byte) : Option (List (Const D) × List Byte) :=
  match readU8 bs with
  | none => none
  | some (n, bs) => readConsts F pn n bs

mutual
/-- compile.c:1146-1177 `potion_proto_load`; `nested` tells whether there is an enclosing function (`up`), which becomes the
source when none was written. `fuel` bounds the recursion; it is never used up (`load` gives more than there are bytes,
and each call consumes some). -/
def loadFn (F : Fmt D) (pn : Nat) : (fuel : Nat) → (nested : Bool) → List Byte → Option (Fn D × List Byte)
  | 0, _, _ => none
  | fuel+1, nested, bs => do
    let (name, bs) ← readConst F pn bs
    let (source, bs) ← readConst F pn bs
    let source := match source with
      | .imm w => if w = PN_NIL ∧ nested then .ptr else .imm w
      | c => c
    let (sig, bs) ← readValues F pn bs
    let (stack, bs) ← readConst F pn bs
    let (values, bs) ← readValues F pn bs
    let (paths, bs) ← readValues F pn bs
    let (locals, bs) ← readValues F pn bs
    let (upvals, bs) ← readValues F pn bs
    let (n, bs) ← readU8 bs
    let (protos, bs) ← loadFns F pn fuel n bs
    let (len, bs) ← readPN pn bs
    let (asmb, bs) ← readBytes len.toNat bs
    return (.mk name source sig stack values paths locals upvals protos asmb, bs)
/-- compile.c:1140-1143 `READ_PROTOS`. -/
def loadFns (F : Fmt D) (pn : Nat) : (fuel : Nat) → (count : Nat) → List Byte → Option (List (Fn D) × List Byte)
  | _, 0, bs => some ([], bs)
  | 0, _+1, _ => none
  | fuel+1, n+1, bs => do
    let (f, bs) ← loadFn F pn fuel true bs
    let (fs, bs) ← loadFns F pn fuel n bs
    return (f :: fs, bs)
end

/-- The answers of `potion_source_load`: nil, a function, or (`crash`) a read outside of the buffer. -/
inductive Loaded (D : Type)
  | nil
  | fn (f : Fn D)
  | crash

/-- compile.c:1181-1191 `potion_source_load`. -/
def load (F : Fmt D) (buf : List Byte) : Loaded D :=
  if buf.length ≤ 8 ∨ buf.take 4 ≠ header.take 4 then .nil
  else match loadFn F ((buf[7]?).getD 0).toNat (2 * buf.length) false (buf.drop 8) with
    | some (f, _) => .fn f
    | none => .crash

end Potion.Dump
