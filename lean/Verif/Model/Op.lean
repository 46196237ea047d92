import Verif.Model.Word
import Verif.Model.Bytes
/-!
Model of VM instructions (/repo/core/opcodes.h 9-80, /repo/core/asm.c 44-55) and of the choice between immediate and
pooled constants (/repo/core/compile.c 353-357).
-/
namespace Potion.Ops
open Potion

/-- opcodes.h:70-74 `PN_OP`: a packed 32-bit structure: `code:8`, signed `a:12`, signed `b:12` from the low bits up. -/
abbrev OpWord := BitVec 32

/-- Storing an `int` into a 12-bit bit-field keeps its low 12 bits. -/
def field (x : BitVec 32) : BitVec 12 := x.setWidth 12

/-- asm.c:49-51: `pos->code = ins; pos->a = _a; pos->b = _b`. -/
def encode (code : BitVec 8) (a b : BitVec 32) : OpWord := (field b ++ field a) ++ code

/-- Reading `op.code`. -/
def opCode (w : OpWord) : BitVec 8 := w.extractLsb' 0 8
/-- Reading `op.a` as `int` (sign extension). -/
def opA (w : OpWord) : BitVec 32 := (w.extractLsb' 8 12).signExtend 32
/-- Reading `op.b` as `int` (sign extension). -/
def opB (w : OpWord) : BitVec 32 := (w.extractLsb' 20 12).signExtend 32

/-- compile.c:480 etc. `PN_OP_AT(f->asmb, jmp).b = d`: patching a jump. -/
def setB (w : OpWord) (d : BitVec 32) : OpWord := encode (opCode w) (opA w) d
/-- compile.c:722, 725 `PN_OP_AT(f->asmb, i).a = d`. -/
def setA (w : OpWord) (d : BitVec 32) : OpWord := encode (opCode w) d (opB w)

/-- compile.c:354-355 `op.a = PN_S(t,0); !PN_IS_PTR(a) && (PN)a == (PN)op.a`: may the constant be an immediate operand
of LOADPN? -/
def immediate (v : PN) : Bool := !(isPtr v) && v == (v.setWidth 12).signExtend 64

/-- vm.c:699 `reg[op.a] = (PN)op.b`: the value LOADPN produces. -/
def loadPN (w : OpWord) : PN := (opB w).signExtend 64

/-- asm.c:44-55 `potion_asm_op`: append the instruction's four bytes (little-endian). -/
def asmOp (b : Bytes.Buf) (junk : Nat → Byte) (w : OpWord) : Option Bytes.Buf :=
  match Bytes.flexNeeds b junk 4 with
  | none => none
  | some b => match Bytes.writeAt b.mem b.len (Bytes.leBytes 4 w.toNat) with
    | none => none
    | some m => some { mem := m, len := b.len + 4 }

/-- opcodes.h:82 `PN_OP_AT(asmb, n)`: the n-th instruction word. -/
def opAt (b : Bytes.Buf) (n : Nat) : Option OpWord :=
  match b.mem[4*n]?, b.mem[4*n+1]?, b.mem[4*n+2]?, b.mem[4*n+3]? with
  | some b0, some b1, some b2, some b3 => some (((b3 ++ b2) ++ b1) ++ b0)
  | _, _, _, _ => none

/-- opcodes.h:83 `PN_OP_LEN`. -/
def opLen (b : Bytes.Buf) : Nat := b.len / 4

end Potion.Ops
