import Verif.Model.Str
/-!
Model of growing byte buffers: PNBytes (/repo/core/string.c 16-18, 333-470) and PNAsm (/repo/core/asm.c,
/repo/core/internal.h 36-52). A buffer is the memory after its header (`siz` bytes) and the length in use. A write that
would leave that memory is `none`.
-/
namespace Potion.Bytes
open Potion

/-- potion.h `struct PNBytes` / `PNAsm`: `siz` is `mem.length`. -/
structure Buf where
  mem : List Byte
  len : Nat
  deriving DecidableEq, Repr

/-- `memcpy(mem + off, bs, n)`; `none` when it would write outside the block. -/
def writeAt (mem : List Byte) (off : Nat) (bs : List Byte) : Option (List Byte) :=
  if off + bs.length ≤ mem.length then some (mem.take off ++ bs ++ mem.drop (off + bs.length)) else none

/-- A newly allocated block with unknown contents. -/
def block (junk : Nat → Byte) (n : Nat) : List Byte := (List.range n).map junk

/-- potion.h:740-760 `potion_gc_realloc` seen from the object's memory: the same object if it is large enough, else the
old contents copied to a new block (gc.c:362 gives the old size); the collector is not modelled here. -/
def realloc (mem : List Byte) (junk : Nat → Byte) (siz : Nat) : List Byte :=
  if mem.length ≥ siz then mem else mem ++ block junk (siz - mem.length)

/-- potion.h `PN_ALIGN(o, x) = ((((o) - 1) / (x)) + 1) * (x)`. -/
def align (o x : Nat) : Nat := ((o - 1) / x + 1) * x

/-- string.c:16-18 `BYTES_ALIGN(len)`; `sizeof(struct PNBytes)` is 16. -/
def bytesAlign (n : Nat) : Nat := align (n + 16) 32 - 16

/-- string.c:342-348 `potion_bytes(P, len)`; `siz` and `len` are 32-bit. -/
def bytesNew (junk : Nat → Byte) (len : Nat) : Buf :=
  { mem := block junk (bytesAlign (len + 1) % 2^32), len := len % 2^32 }

/-- string.c:335-340 `potion_byte_str2`. -/
def byteStr2 (junk : Nat → Byte) (s : List Byte) : Option Buf :=
  let b := bytesNew junk s.length
  match writeAt b.mem 0 s with
  | none => none
  | some m => match writeAt m s.length [0#8] with
    | none => none
    | some m => some { b with mem := m }

/-- string.c:397-401 (and 370-374): make room for `len` more bytes. `s->len + len + 1` and
`(s->len + len) * 1 / 8 * 9` are computed in 32-bit unsigned arithmetic. -/
def ensure (b : Buf) (junk : Nat → Byte) (len : Nat) : Buf :=
  if (b.len + len + 1) % 2^32 > b.mem.length then
    let siz := bytesAlign (((b.len + len) % 2^32 / 8 * 9) % 2^32 + 1)
    { b with mem := realloc b.mem junk (siz % 2^32) }
  else b

/-- string.c:392-408 `potion_bytes_append` with the bytes of another string. -/
def append (b : Buf) (junk : Nat → Byte) (s : List Byte) : Option Buf :=
  let b1 := ensure b junk s.length
  match writeAt b1.mem b1.len s with
  | none => none
  | some m =>
    let l := (b1.len + s.length) % 2^32
    match writeAt m l [0#8] with
    | none => none
    | some m => some { mem := m, len := l }

/-- string.c:392-408 when `str` is the buffer itself: `PN_STR_PTR(fstr)` follows the forwarding pointer left by the
reallocation, so the bytes are read from the new block. -/
def appendSelf (b : Buf) (junk : Nat → Byte) : Option Buf :=
  let len := b.len
  let b1 := ensure b junk len
  match writeAt b1.mem b1.len (b1.mem.take len) with
  | none => none
  | some m =>
    let l := (b1.len + len) % 2^32
    match writeAt m l [0#8] with
    | none => none
    | some m => some { mem := m, len := l }

/-- string.c:361-382 `pn_printf` of a formatted text (the formatting itself is libc): `vsnprintf` writes the text and
its NUL. -/
def printf (b : Buf) (junk : Nat → Byte) (text : List Byte) : Option Buf :=
  let b1 := ensure b junk text.length
  match writeAt b1.mem b1.len (text ++ [0#8]) with
  | none => none
  | some m => some { mem := m, len := (b1.len + text.length) % 2^32 }

/-- string.c:353-359 `potion_bytes_clone`: allocates and sets the sizes, copies nothing. -/
def clone (b : Buf) (junk : Nat → Byte) : Buf := { mem := block junk b.mem.length, len := b.len }

/-- string.c:455-463 `potion_bytes_at`: the byte (as a one-byte Bytes object), or nil. The index is the integer;
`index >= len` compares unsigned 64-bit numbers, negative ones being huge. -/
def bytesAt (b : Buf) (index : Int) : Option Byte :=
  if index < 0 ∨ index ≥ b.len then none else b.mem[index.toNat]?

/-- string.c:441-449 `potion_bytes_each`: the bytes passed to the block, in order. -/
def each (b : Buf) : List (Option Byte) := (List.range b.len).map fun i => b.mem[i]?

/-- Operations on a Bytes object; each carries the contents of a block it may allocate. -/
inductive Op
  | append (s : List Byte)
  | appendSelf
  | printf (s : List Byte)

/-- One operation. -/
def step (b : Buf) (junk : Nat → Byte) : Op → Option Buf
  | .append s => append b junk s
  | .appendSelf => appendSelf b junk
  | .printf s => printf b junk s

/-- A history. -/
def run (b : Buf) : List (Op × (Nat → Byte)) → Option Buf
  | [] => some b
  | (op, junk) :: ops => match step b junk op with
    | none => none
    | some b => run b ops

/-! ### Assembler buffers -/

/-- asm.h:16 -/
def ASM_UNIT : Nat := 512

/-- asm.c:13-18 `potion_asm_new`; `sizeof(PNAsm)` is 16. -/
def asmNew (junk : Nat → Byte) : Buf := { mem := block junk (ASM_UNIT - 16), len := 0 }

/-- asm.c:20-24 `potion_asm_clear`. -/
def asmClear (b : Buf) : Buf := { mem := List.replicate b.mem.length 0#8, len := 0 }

/-- internal.h:43-44 `while (capa < len + X) capa += S` (`fuel` bounds the iterations; 32-bit wrap not modelled). -/
def growLoop (need : Nat) : (fuel : Nat) → Nat → Option Nat
  | 0, _ => none
  | f+1, capa => if capa < need then growLoop need f (capa + ASM_UNIT) else some capa

/-- internal.h:41-52 `PN_FLEX_NEEDS(X, asmb, ...)` with one-byte elements. -/
def flexNeeds (b : Buf) (junk : Nat → Byte) (x : Nat) : Option Buf :=
  if b.mem.length < b.len + x then
    match growLoop (b.len + x) (b.len + x + 1) b.mem.length with
    | none => none
    | some capa => some { b with mem := realloc b.mem junk capa }
  else some b

/-- asm.c:57-64 `potion_asm_write`. -/
def asmWrite (b : Buf) (junk : Nat → Byte) (s : List Byte) : Option Buf :=
  match flexNeeds b junk s.length with
  | none => none
  | some b => match writeAt b.mem b.len s with
    | none => none
    | some m => some { mem := m, len := b.len + s.length }

/-- Little-endian bytes of a word. -/
def leBytes : Nat → Nat → List Byte
  | 0, _ => []
  | n+1, v => BitVec.ofNat 8 v :: leBytes n (v / 256)

/-- asm.c:26-42 `potion_asm_put`: 1, 2, 4 or 8 bytes of the value; for any other length the bytes are left as they
are. -/
def asmPut (b : Buf) (junk : Nat → Byte) (v : BitVec 64) (len : Nat) : Option Buf :=
  match flexNeeds b junk len with
  | none => none
  | some b =>
    if len = 1 ∨ len = 4 ∨ len = 8 ∨ len = 2 then
      match writeAt b.mem b.len (leBytes len v.toNat) with
      | none => none
      | some m => some { mem := m, len := b.len + len }
    else some { b with len := b.len + len }

/-- The C string starting at the buffer (string.c:421 `PN_STR_PTR(self)` given to `strlen`/`strcmp`): the bytes before
the first NUL; `none` when the block holds no NUL, so that the scan leaves it. -/
def cstring (b : Buf) : Option (List Byte) :=
  if 0#8 ∈ b.mem then some (b.mem.takeWhile (· ≠ 0#8)) else none

/-- syntax.y:270-273, 331-335: a string literal: clear the buffer, write the pieces. -/
def asmWrites (b : Buf) : List (List Byte × (Nat → Byte)) → Option Buf
  | [] => some b
  | (s, junk) :: rest => match asmWrite b junk s with
    | none => none
    | some b => asmWrites b rest
def literal (b : Buf) (pieces : List (List Byte × (Nat → Byte))) : Option Buf := asmWrites (asmClear b) pieces

end Potion.Bytes
