import Verif.Model.Bytes
/-!
The x86-64 instructions that /repo/core/vm-x86.c writes for the modelled part of the bytecode: their encodings (a decoder
from bytes) and their effect. This is a model of the processor, not of code in /repo; it follows the Intel manual for
these encodings. Floating point instructions and all others are not decoded: reaching one is a `fault`, and so is an
access that is not aligned to 8 bytes (the generated code makes none). Registers are numbered as in the encoding: 0 rax,
1 rcx, 2 rdx, 3 rbx, 4 rsp, 5 rbp, 6 rsi, 7 rdi, 8 r8, 9 r9.
-/
namespace Potion.X86
open Potion

abbrev rax : Nat := 0
abbrev rcx : Nat := 1
abbrev rdx : Nat := 2
abbrev rbx : Nat := 3
abbrev rsp : Nat := 4
abbrev rbp : Nat := 5
abbrev rsi : Nat := 6
abbrev rdi : Nat := 7
abbrev r8 : Nat := 8
abbrev r9 : Nat := 9

/-- Machine state: `rip` counts from the start of the generated code; `of` is `none` where the manual leaves the flag
undefined; `mem` holds the 64-bit word at each 8-aligned address. -/
structure Mach where
  rip : Nat
  regs : Nat → PN
  zf : Bool
  sf : Bool
  of : Option Bool
  mem : PN → PN

/-- An operand given by ModRM (and SIB and displacement). -/
inductive Ea
  | reg (n : Nat)
  | mem (base : Nat) (disp : Int)
  | sib (base index scale : Nat) (disp : Int)
  deriving DecidableEq, Repr

inductive Alu | add | sub | cmp | test | and | imul
  deriving DecidableEq, Repr
inductive Un | inc | dec | not | neg | sar | shr
  deriving DecidableEq, Repr
/-- Conditions of the conditional jumps. -/
inductive Cc | o | e | ne | s | l | ge | le | g
  deriving DecidableEq, Repr

inductive Instr
  | mov (dst src : Ea)
  | movi (r : Nat) (v : PN)
  | lea (r : Nat) (ea : Ea)
  | alu (op : Alu) (d s : Nat)
  | alui (op : Alu) (d : Nat) (v : Int)
  | un (op : Un) (r : Nat)
  | testb (r : Nat) (v : Byte)
  | testd (r : Nat) (v : Int)
  | cmpd (ea : Ea) (v : Int)
  | jcc (c : Cc) (d : Int)
  | jmp (d : Int)
  | push (r : Nat)
  | leave
  | ret
  | call (r : Nat)
  | mov32 (d s : Nat)
  | lea32 (r : Nat) (ea : Ea)
  | sar32 (r n : Nat)
  | shl32 (r : Nat)
  | shr32 (r : Nat)
  | idiv32 (s : Nat)
  | movi32 (r : Nat) (v : BitVec 32)
  deriving DecidableEq, Repr

/-- Little-endian signed 8- and 32-bit values and 64-bit words. -/
def imm8 : List Byte → Option (Int × Nat)
  | b :: _ => some (b.toInt, 1)
  | _ => none
def imm32 : List Byte → Option (Int × Nat)
  | a :: b :: c :: d :: _ => some ((d ++ c ++ b ++ a).toInt, 4)
  | _ => none
def imm64 : List Byte → Option (PN × Nat)
  | a :: b :: c :: d :: e :: f :: g :: h :: _ => some (h ++ g ++ f ++ e ++ d ++ c ++ b ++ a, 8)
  | _ => none

/-- ModRM: the register field (extended by REX.R), the operand (base extended by REX.B) and the number of bytes. -/
def modrm (r b : Nat) : List Byte → Option (Nat × Ea × Nat)
  | m :: t =>
    let reg := m.toNat / 8 % 8 + r
    let rm := m.toNat % 8
    match m.toNat / 64 with
    | 0 =>
      if rm = 4 then match t with
        | s :: _ => if s.toNat / 8 % 8 = 4 ∨ s.toNat % 8 = 5 then none
          else some (reg, .sib (s.toNat % 8 + b) (s.toNat / 8 % 8) (2 ^ (s.toNat / 64)) 0, 2)
        | _ => none
      else if rm = 5 then none
      else some (reg, .mem (rm + b) 0, 1)
    | 1 =>
      if rm = 4 then match t with
        | s :: t => if s.toNat / 8 % 8 = 4 then none
          else (imm8 t).map fun d => (reg, .sib (s.toNat % 8 + b) (s.toNat / 8 % 8) (2 ^ (s.toNat / 64)) d.1, 3)
        | _ => none
      else (imm8 t).map fun d => (reg, .mem (rm + b) d.1, 2)
    | 2 => if rm = 4 then none else (imm32 t).map fun d => (reg, .mem (rm + b) d.1, 5)
    | _ => some (reg, .reg (rm + b), 1)
  | _ => none

/-- Register operand of an instruction that is only decoded with two registers. -/
def regOf : Ea → Option Nat
  | .reg n => some n
  | _ => none

/-- The condition of `7x`. -/
def ccOf (b : Byte) : Option Cc :=
  if b = 0x70#8 then some .o
  else if b = 0x74#8 then some .e
  else if b = 0x75#8 then some .ne
  else if b = 0x78#8 then some .s
  else if b = 0x7C#8 then some .l
  else if b = 0x7D#8 then some .ge
  else if b = 0x7E#8 then some .le
  else if b = 0x7F#8 then some .g
  else none

/-- The instructions with REX.W (64-bit operands). `r`, `b`: REX.R, REX.B times 8. -/
def decodeW (r b : Nat) : List Byte → Option (Instr × Nat)
  | o :: t =>
    if o = 0x89#8 then (modrm r b t).map fun (g, ea, n) => (.mov ea (.reg g), n + 1)
    else if o = 0x8B#8 then (modrm r b t).map fun (g, ea, n) => (.mov (.reg g) ea, n + 1)
    else if o = 0x8D#8 then (modrm r b t).bind fun (g, ea, n) => match ea with
      | .reg _ => none
      | _ => some (.lea g ea, n + 1)
    else if o = 0xB8#8 then (imm64 t).map fun (v, n) => (.movi b v, n + 1)
    else if o = 0x05#8 then (imm32 t).map fun (v, n) => (.alui .add 0 v, n + 1)
    else if o = 0xC7#8 then (modrm r b t).bind fun (g, ea, n) => match g % 8, ea, imm32 (t.drop n) with
      | 0, .reg d, some (v, k) => some (.movi d (BitVec.ofInt 64 v), n + k + 1)
      | _, _, _ => none
    else if o = 0x29#8 then (modrm r b t).bind fun (g, ea, n) => (regOf ea).map fun d => (.alu .sub d g, n + 1)
    else if o = 0x39#8 then (modrm r b t).bind fun (g, ea, n) => (regOf ea).map fun d => (.alu .cmp d g, n + 1)
    else if o = 0x85#8 then (modrm r b t).bind fun (g, ea, n) => (regOf ea).map fun d => (.alu .test d g, n + 1)
    else if o = 0x81#8 then (modrm r b t).bind fun (g, ea, n) => match g % 8, ea, imm32 (t.drop n) with
      | 5, .reg d, some (v, k) => some (.alui .sub d v, n + k + 1)
      | _, _, _ => none
    else if o = 0x83#8 then (modrm r b t).bind fun (g, ea, n) => match g % 8, ea, imm8 (t.drop n) with
      | 4, .reg d, some (v, k) => some (.alui .and d v, n + k + 1)
      | 5, .reg d, some (v, k) => some (.alui .sub d v, n + k + 1)
      | 7, .reg d, some (v, k) => some (.alui .cmp d v, n + k + 1)
      | _, _, _ => none
    else if o = 0xFF#8 then (modrm r b t).bind fun (g, ea, n) => match g % 8, ea with
      | 0, .reg d => some (.un .inc d, n + 1)
      | 1, .reg d => some (.un .dec d, n + 1)
      | _, _ => none
    else if o = 0xF7#8 then (modrm r b t).bind fun (g, ea, n) => match g % 8, ea with
      | 2, .reg d => some (.un .not d, n + 1)
      | 3, .reg d => some (.un .neg d, n + 1)
      | _, _ => none
    else if o = 0xD1#8 then (modrm r b t).bind fun (g, ea, n) => match g % 8, ea with
      | 7, .reg d => some (.un .sar d, n + 1)
      | 5, .reg d => some (.un .shr d, n + 1)
      | _, _ => none
    else if o = 0x0F#8 then match t with
      | o2 :: t => if o2 = 0xAF#8 then
          (modrm r b t).bind fun (g, ea, n) => (regOf ea).map fun s => (.alu .imul g s, n + 2)
        else none
      | _ => none
    else none
  | _ => none

/-- One instruction and its length. -/
def decode : List Byte → Option (Instr × Nat)
  | o :: t =>
    if o = 0x48#8 then (decodeW 0 0 t).map fun (i, n) => (i, n + 1)
    else if o = 0x4C#8 then (decodeW 8 0 t).map fun (i, n) => (i, n + 1)
    else if o = 0x49#8 then (decodeW 0 8 t).map fun (i, n) => (i, n + 1)
    else if o = 0x55#8 then some (.push 5, 1)
    else if o = 0xC9#8 then some (.leave, 1)
    else if o = 0xC3#8 then some (.ret, 1)
    else if o = 0xEB#8 then (imm8 t).map fun (d, n) => (.jmp d, n + 1)
    else if o = 0xE9#8 then (imm32 t).map fun (d, n) => (.jmp d, n + 1)
    else if o = 0xA8#8 then match t with
      | v :: _ => some (.testb 0 v, 2)
      | _ => none
    -- byte registers 0-3 only: al, cl, dl, bl
    else if o = 0xF6#8 then (modrm 0 0 t).bind fun (g, ea, n) => match g, ea, t.drop n with
      | 0, .reg d, v :: _ => if d < 4 then some (.testb d v, n + 2) else none
      | _, _, _ => none
    else if o = 0xF7#8 then (modrm 0 0 t).bind fun (g, ea, n) => match g, ea, imm32 (t.drop n) with
      | 0, .reg d, some (v, k) => some (.testd d v, n + k + 1)
      | 7, .reg d, _ => some (.idiv32 d, n + 1)
      | _, _, _ => none
    else if o = 0x81#8 then (modrm 0 0 t).bind fun (g, ea, n) => match g, ea, imm32 (t.drop n) with
      | 7, .mem x d, some (v, k) => some (.cmpd (.mem x d) v, n + k + 1)
      | 7, .reg d, some (v, k) => some (.cmpd (.reg d) v, n + k + 1)
      | _, _, _ => none
    else if o = 0x89#8 then (modrm 0 0 t).bind fun (g, ea, n) => (regOf ea).map fun d => (.mov32 d g, n + 1)
    else if o = 0x8D#8 then (modrm 0 0 t).bind fun (g, ea, n) => match ea with
      | .reg _ => none
      | _ => some (.lea32 g ea, n + 1)
    else if o = 0xD1#8 then (modrm 0 0 t).bind fun (g, ea, n) => match g, ea with
      | 7, .reg d => some (.sar32 d 1, n + 1)
      | _, _ => none
    else if o = 0xC1#8 then (modrm 0 0 t).bind fun (g, ea, n) => match g, ea, t.drop n with
      | 7, .reg d, v :: _ => some (.sar32 d (v.toNat % 32), n + 2)
      | _, _, _ => none
    -- shifts by the low five bits of %cl
    else if o = 0xD3#8 then (modrm 0 0 t).bind fun (g, ea, n) => match g, ea with
      | 4, .reg d => some (.shl32 d, n + 1)
      | 7, .reg d => some (.shr32 d, n + 1)
      | _, _ => none
    else if o = 0xB8#8 then match t with
      | a :: b :: c :: d :: _ => some (.movi32 0 (d ++ c ++ b ++ a), 5)
      | _ => none
    else if o = 0xFF#8 then (modrm 0 0 t).bind fun (g, ea, n) => match g, ea with
      | 2, .reg d => some (.call d, n + 1)
      | _, _ => none
    else match ccOf o with
      | some c => (imm8 t).map fun (d, n) => (.jcc c d, n + 1)
      | none => none
  | _ => none

/-- Result of an instruction: go on, return to the address found on the stack, or a trap. -/
inductive Out
  | run (m : Mach)
  | ret (m : Mach) (to : PN)
  | fault

def Mach.set (m : Mach) (r : Nat) (v : PN) : Mach := { m with regs := fun k => if k = r then v else m.regs k }
def Mach.put (m : Mach) (a v : PN) : Mach := { m with mem := fun k => if k = a then v else m.mem k }

def Mach.ea (m : Mach) : Ea → PN
  | .reg n => m.regs n
  | .mem b d => m.regs b + BitVec.ofInt 64 d
  | .sib b i s d => m.regs b + m.regs i * BitVec.ofNat 64 s + BitVec.ofInt 64 d

def aligned (a : PN) : Bool := a.toNat % 8 == 0

/-- Value of a 64-bit operand. -/
def Mach.get (m : Mach) : Ea → Option PN
  | .reg n => some (m.regs n)
  | e => if aligned (m.ea e) then some (m.mem (m.ea e)) else none

/-- Flags of a result; `x` is the exact signed result. -/
def Mach.flags {n : Nat} (m : Mach) (v : BitVec n) (ov : Option Bool) : Mach :=
  { m with zf := v == 0#n, sf := v.msb, of := ov }

def fits (n : Nat) (i : Int) : Bool := decide (-(2^(n-1)) ≤ i ∧ i < 2^(n-1))

def Mach.alu (m : Mach) (op : Alu) (d : Nat) (x y : PN) : Mach :=
  match op with
  | .add => (m.flags (x + y) (some (!fits 64 (x.toInt + y.toInt)))).set d (x + y)
  | .sub => (m.flags (x - y) (some (!fits 64 (x.toInt - y.toInt)))).set d (x - y)
  | .cmp => m.flags (x - y) (some (!fits 64 (x.toInt - y.toInt)))
  | .and => (m.flags (x &&& y) (some false)).set d (x &&& y)
  | .test => m.flags (x &&& y) (some false)
  -- zf and sf are undefined after imul; no generated code looks at them
  | .imul => { m with of := some (!fits 64 (x.toInt * y.toInt)) }.set d (x * y)

def Mach.un (m : Mach) (op : Un) (d : Nat) (x : PN) : Mach :=
  match op with
  | .inc => (m.flags (x + 1#64) (some (!fits 64 (x.toInt + 1)))).set d (x + 1#64)
  | .dec => (m.flags (x - 1#64) (some (!fits 64 (x.toInt - 1)))).set d (x - 1#64)
  | .not => m.set d (~~~x)
  | .neg => (m.flags (-x) (some (!fits 64 (-x.toInt)))).set d (-x)
  | .sar => (m.flags (x.sshiftRight 1) (some false)).set d (x.sshiftRight 1)
  | .shr => (m.flags (x >>> 1) (some x.msb)).set d (x >>> 1)

/-- The low half of a register. Instructions that write the low half clear the upper half. -/
def Mach.lo (m : Mach) (r : Nat) : BitVec 32 := (m.regs r).setWidth 32
def Mach.set32 (m : Mach) (r : Nat) (v : BitVec 32) : Mach := m.set r (v.setWidth 64)

/-- Arithmetic right shift of 32 bits by `n < 32`: a shift by 0 leaves the flags, the overflow flag is only defined for
shifts by 1. -/
def Mach.sar32 (m : Mach) (r n : Nat) : Mach :=
  let v := (m.lo r).sshiftRight n
  if n = 0 then m.set32 r v else (m.flags v (if n = 1 then some false else none)).set32 r v
def Mach.shl32 (m : Mach) (r n : Nat) : Mach :=
  let v := m.lo r <<< n
  if n = 0 then m.set32 r v else (m.flags v (if n = 1 then some ((m.lo r).msb != v.msb) else none)).set32 r v

/-- `idiv`: `%edx:%eax` by the operand, truncating; a trap if the quotient does not fit. The flags are undefined. -/
def Mach.idiv32 (m : Mach) (s : Nat) : Option Mach :=
  let x := (m.lo rdx ++ m.lo rax).toInt
  let y := (m.lo s).toInt
  if y = 0 then none
  else if fits 32 (x.tdiv y) then
    some ({ m with of := none }.set32 rax (BitVec.ofInt 32 (x.tdiv y)) |>.set32 rdx (BitVec.ofInt 32 (x.tmod y)))
  else none

def Mach.cc (m : Mach) : Cc → Option Bool
  | .o => m.of
  | .e => some m.zf
  | .ne => some !m.zf
  | .s => some m.sf
  | .l => m.of.map fun o => m.sf != o
  | .ge => m.of.map fun o => m.sf == o
  | .le => m.of.map fun o => m.zf || m.sf != o
  | .g => m.of.map fun o => !m.zf && m.sf == o

def Mach.goto (m : Mach) (next : Nat) (d : Int) : Out :=
  if 0 ≤ (next : Int) + d then .run { m with rip := ((next : Int) + d).toNat } else .fault

/-- `ext a m` is what a call of the C function at address `a` makes of the machine (`none`: no such function). -/
abbrev Ext := PN → Mach → Option Mach

def Mach.exec (ext : Ext) (m : Mach) (next : Nat) : Instr → Out
  | .mov d s => match m.get s with
    | none => .fault
    | some v => match d with
      | .reg r => .run { m.set r v with rip := next }
      | e => if aligned (m.ea e) then .run { m.put (m.ea e) v with rip := next } else .fault
  | .movi r v => .run { m.set r v with rip := next }
  | .lea r e => .run { m.set r (m.ea e) with rip := next }
  | .alu op d s => .run { m.alu op d (m.regs d) (m.regs s) with rip := next }
  | .alui op d v => .run { m.alu op d (m.regs d) (BitVec.ofInt 64 v) with rip := next }
  | .un op d => .run { m.un op d (m.regs d) with rip := next }
  | .testb r v => .run { m.flags ((m.regs r).setWidth 8 &&& v) (some false) with rip := next }
  | .testd r v => .run { m.flags ((m.regs r).setWidth 32 &&& BitVec.ofInt 32 v) (some false) with rip := next }
  | .cmpd e v => match m.get e with
    | none => .fault
    | some w => .run { m.flags (w.setWidth 32 - BitVec.ofInt 32 v)
        (some (!fits 32 ((w.setWidth 32).toInt - (BitVec.ofInt 32 v).toInt))) with rip := next }
  | .jcc c d => match m.cc c with
    | none => .fault
    | some true => m.goto next d
    | some false => .run { m with rip := next }
  | .jmp d => m.goto next d
  | .push r =>
    let sp := m.regs rsp - 8#64
    if aligned sp then .run { (m.put sp (m.regs r)).set rsp sp with rip := next } else .fault
  | .leave =>
    let bp := m.regs rbp
    if aligned bp then .run { (m.set rbp (m.mem bp)).set rsp (bp + 8#64) with rip := next } else .fault
  | .ret =>
    let sp := m.regs rsp
    if aligned sp then .ret (m.set rsp (sp + 8#64)) (m.mem sp) else .fault
  | .call r => match ext (m.regs r) m with
    | some m' => .run { m' with rip := next }
    | none => .fault
  | .mov32 d s => .run { m.set32 d (m.lo s) with rip := next }
  | .lea32 r e => .run { m.set32 r ((m.ea e).setWidth 32) with rip := next }
  | .sar32 r n => .run { m.sar32 r n with rip := next }
  | .shl32 r => .run { m.shl32 r ((m.regs rcx).toNat % 32) with rip := next }
  | .shr32 r => .run { m.sar32 r ((m.regs rcx).toNat % 32) with rip := next }
  | .idiv32 s => match m.idiv32 s with
    | some m' => .run { m' with rip := next }
    | none => .fault
  | .movi32 r v => .run { m.set32 r v with rip := next }

/-- One instruction of the code. -/
def Mach.step (ext : Ext) (code : List Byte) (m : Mach) : Out :=
  match decode (code.drop m.rip) with
  | none => .fault
  | some (i, n) => m.exec ext (m.rip + n) i

/-- At most `n` instructions; `none` = still running. -/
def Mach.steps (ext : Ext) (code : List Byte) : Nat → Mach → Option Out
  | 0, _ => none
  | n+1, m => match m.step ext code with
    | .run m => Mach.steps ext code n m
    | r => some r

end Potion.X86
