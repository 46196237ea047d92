import Verif.Model.Vm
import Verif.Model.Bytes
/-!
Model of the x86-64 code generator: /repo/core/vm.c 221-365 `potion_jit_proto` and /repo/core/vm-x86.c, for `PN_SIZE_T` 8.
The output is the list of bytes in the `PNAsm` buffer (its growth is the subject of C15). Instructions outside the
modelled part (calls, closures, tables, division and shifts, ...) make `emit` return `none`, and so does leaving the
fixed-size arrays `jmps` and `offs`.
-/
namespace Potion.Jit
open Potion Potion.Vm

/-- What the generated code refers to: the interpreter's address and the C functions it calls. -/
structure Env where
  P : PN
  fValues : PN
  vmEq : PN
  vmNeq : PN
  objAdd : PN
  objSub : PN
  objMult : PN
  objDiv : PN
  objRem : PN
  objBitl : PN
  objBitr : PN
  objBitn : PN

/-- asm.h:100-101 `ASMI(x)`, `ASMN(x)`: four, eight bytes, little-endian. -/
def asmI (x : Int) : List Byte := Bytes.leBytes 4 (BitVec.ofInt 32 x).toNat
def asmN (x : PN) : List Byte := Bytes.leBytes 8 x.toNat

/-- vm-x86.c:17-18, 47-52 `ASM_MOV_EBP(op, reg)`: ModRM byte and displacement of slot `reg`, which is
`-(reg+1)*8(%rbp)`; `(op)+0x40` turns the 8-bit displacement form into the 32-bit one. -/
def movEbp (op : Byte) (x : Int) : List Byte :=
  if x > 15 then (op + 0x40#8) :: asmI (-((x + 1) * 8)) else [op, BitVec.ofInt 8 (0x100 - (x + 1) * 8)]

/-- vm-x86.c:55 `X86_MOV_RBP(op, x)`: 0x8B loads `%rax` from slot `x`, 0x89 stores it. -/
def movRbp (op : Byte) (x : Int) : List Byte := 0x48#8 :: op :: movEbp 0x45#8 x

/-- The same with `%rdx` (`X86_PRE(); ASM(op); ASM_MOV_EBP(0x55, x)`). -/
def movRbpDx (op : Byte) (x : Int) : List Byte := 0x48#8 :: op :: movEbp 0x55#8 x

/-- vm-x86.c:61-63 `X86_MOVQ(reg, x)`: slot `reg` = constant `x`. -/
def movq (r : Int) (x : PN) : List Byte := [0x48#8, 0xB8#8] ++ asmN x ++ [0x48#8, 0x89#8] ++ movEbp 0x45#8 r

/-- vm-x86.c:324-413 `potion_x86_c_arg`, 64-bit, `out` not 2: move slot `regn` to (`X86_ARGO`, op 0x8B) or from
(`X86_ARGI`, op 0x89) the place of argument `argn`. Only arguments in registers going out are modelled; incoming ones
may be on the stack. -/
def argReg (op : Byte) (regn : Int) (argn : Nat) : List Byte :=
  match argn with
  | 0 => 0x48#8 :: op :: movEbp 0x7d#8 regn
  | 1 => 0x48#8 :: op :: movEbp 0x75#8 regn
  | 2 => 0x48#8 :: op :: movEbp 0x55#8 regn
  | 3 => 0x48#8 :: op :: movEbp 0x4d#8 regn
  | 4 => 0x4c#8 :: op :: movEbp 0x45#8 regn
  | _ => 0x4c#8 :: op :: movEbp 0x4d#8 regn
def argO (regn : Int) (argn : Nat) : List Byte := argReg 0x8B#8 regn argn
def argI (regn : Int) (argn : Nat) : List Byte :=
  if argn < 6 then argReg 0x89#8 regn argn
  else [0x48#8, 0x8B#8, 0x5d#8, BitVec.ofInt 8 (((argn : Int) - 4) * 8)] ++ [0x48#8, 0x89#8] ++ movEbp 0x5d#8 regn

/-- `X86_PRE(); ASM(0xB8); ASMN(fn); ASM(0xFF); ASM(0xD0)`: call a C function. -/
def callC (fn : PN) : List Byte := [0x48#8, 0xB8#8] ++ asmN fn ++ [0xFF#8, 0xD0#8]

/-- vm-x86.c:65-66 `TAG_PREP`/`TAG_LABEL`: the displacement byte of a short jump over `body`. -/
def over (body : List Byte) : Byte := BitVec.ofNat 8 body.length

/-- vm-x86.c:104-124 `X86_MATH(two, dbl_func, ops)`. -/
def math (two : Bool) (fn : PN) (ops : List Byte) (start a b : Int) : List Byte :=
  let slow := argO (start - 3) 0 ++ argO a 1 ++ argO b 2 ++ callC fn
  let fast := ops ++ [0xEB#8, over slow]
  let tst2 := if two then [0xF6#8, 0xC2#8, 0x01#8, 0x74#8, over (fast)] else []
  movRbp 0x8B#8 a ++ (if two then movRbpDx 0x8B#8 b else []) ++
    [0xF6#8, 0xC0#8, 0x01#8, 0x74#8, over (tst2 ++ fast)] ++ tst2 ++ fast ++ slow ++ movRbp 0x89#8 a

/-- vm-x86.c:133-177 `X86_NUMCMP(iop, xop, xmms)`. The jump over the last `X86_MOVQ` is 14 bytes, or 17 when the register
is above 31 (`X86C(7,14, 1,op.a)`, vm-x86.c:41). -/
def numcmp (iop xop : Byte) (a b : Int) : List Byte :=
  let xmms := [0x66#8, 0x0F#8, 0x2e#8, 0xc1#8]
  let mfalse := movq a PN_FALSE
  let skip : List Byte := [0xEB#8, if a > 31 then 17#8 else 14#8]
  -- from the label cmp_dbl up to the label false_
  let cmpDbl := xmms ++ [xop, over (mfalse ++ skip)]
  let dblB : List Byte := [0xf2#8, 0x0f#8, 0x10#8, 0x48#8, 8#8, 0xF6#8, 0xC2#8, 0x01#8, 0x74#8, 14#8,
    0x66#8, 0x0f#8, 0xef#8, 0xc0#8, 0x48#8, 0xd1#8, 0xfa#8, 0xF2#8, 0x48#8, 0x0f#8, 0x2a#8, 0xc2#8, 0xEB#8, 5#8,
    0xf2#8, 0x0f#8, 0x10#8, 0x42#8, 8#8]
  let dblA : List Byte := [0xf2#8, 0x0f#8, 0x10#8, 0x42#8, 8#8, 0x66#8, 0x0f#8, 0xef#8, 0xc9#8, 0x48#8, 0xd1#8, 0xf8#8,
    0xF2#8, 0x48#8, 0x0f#8, 0x2a#8, 0xc8#8, 0xEB#8, over dblB]
  let dbl := dblA ++ dblB ++ cmpDbl
  let toFalse := [0xEB#8, over dbl]
  let ints := [0x48#8, 0x39#8, 0xC2#8, iop, over (toFalse ++ dbl ++ mfalse ++ skip)] ++ toFalse
  let tstA := [0xF6#8, 0xC2#8, 0x01#8, 0x74#8, over ints]
  movRbpDx 0x8B#8 a ++ movRbp 0x8B#8 b ++ [0xA8#8, 0x01#8, 0x74#8, over (tstA ++ ints ++ dblA)] ++ tstA ++ ints ++
    dbl ++ mfalse ++ skip ++ movq a PN_TRUE

/-- vm-x86.c:859-872 `potion_x86_test_asm`; `yes` is the word for a true operand, `no` for a false one. -/
def testAsm (a : Int) (yes no : PN) : List Byte :=
  let mt := movq a yes ++ [0xEB#8, over (movq a no)]
  let z := [0x48#8, 0x85#8, 0xC0#8, 0x74#8, over mt]
  movRbp 0x8B#8 a ++ [0x48#8, 0x83#8, 0xF8#8, 0x02#8, 0x74#8, over (z ++ mt)] ++ z ++ mt ++ movq a no

/-- asm.h:88-96 `PN_HAS_UPVALS`: does a function defined here use variables from outside? -/
def hasUpvals (f : Proto) : Bool := f.protos.any fun g => decide (0 < g.upvalsize)

/-- vm.c:253-255 -/
def lregs (f : Proto) : Int := f.stack + f.localsize
def need (f : Proto) : Int := f.stack + f.localsize + f.upvalsize + 3

/-- vm-x86.c:509-519, 528-538: follow a reference cell; `last` is the final load or store through it.
`PN_TWEAK` is 0x250006 (potion.h:122), `PN_REF_MASK` is `~7`. -/
def refTest (last : List Byte) : List Byte :=
  [0xF6#8, 0xC0#8, 0x01#8, 0x75#8, 20#8] ++ [0xF7#8, 0xC0#8] ++ asmI (-8) ++ [0x74#8, 12#8] ++
  [0x81#8, 0x38#8] ++ asmI 0x250006 ++ [0x75#8, 4#8] ++ last

/-- vm-x86.c:704-710: untag both, `idiv`, tag the quotient; 717-723: the remainder. -/
def divOps : List Byte := [0xD1#8, 0xF8#8, 0xD1#8, 0xFA#8, 0x89#8, 0xD1#8, 0x89#8, 0xC2#8, 0xC1#8, 0xFA#8, 0x1F#8, 0xF7#8, 0xF9#8,
  0x8D#8, 0x44#8, 0x00#8, 0x01#8]
def remOps : List Byte := [0xD1#8, 0xF8#8, 0xD1#8, 0xFA#8, 0x89#8, 0xD1#8, 0x89#8, 0xC2#8, 0xC1#8, 0xFA#8, 0x1F#8, 0xF7#8, 0xF9#8,
  0x8D#8, 0x44#8, 0x12#8, 0x01#8]
/-- vm-x86.c:800-806, 813-819: E0 shifts left, F8 right. -/
def shiftOps (o : Byte) : List Byte := [0xD1#8, 0xF8#8, 0xD1#8, 0xFA#8, 0x89#8, 0xD1#8, 0x89#8, 0xC2#8, 0xD3#8, o, 0x70#8, 6#8,
  0x8D#8, 0x44#8, 0x00#8, 0x01#8]

/-- The code of one instruction other than a jump. `none`: not modelled. -/
def plain (E : Env) (f : Proto) (i : Ins) : Option (List Byte) :=
  let start := need f
  match i.op with
  | .move => some (movRbp 0x8B#8 i.b ++ movRbp 0x89#8 i.a)                                       -- vm-x86.c:470-474
  | .loadk => some (argO (start - 3) 0 ++ argO (start - 2) 1 ++ callC E.fValues ++               -- 485-495
      [0x48#8, 0x05#8] ++ asmI (16 + i.b * 8) ++ [0x48#8, 0x8B#8, 0x00#8] ++ movRbp 0x89#8 i.a)
  | .loadpn => some (movq i.a (BitVec.ofInt 64 i.b))                                             -- 476-479
  | .self => some (movRbp 0x8B#8 (start - 1) ++ movRbp 0x89#8 i.a)                               -- 497-501
  | .getlocal => some (movRbp 0x8B#8 (f.stack + i.b) ++                                          -- 505-520
      (if hasUpvals f then refTest [0x48#8, 0x8B#8, 0x40#8, 8#8] else []) ++ movRbp 0x89#8 i.a)
  | .setlocal => some (movRbpDx 0x8B#8 i.a ++                                                    -- 524-540
      (if hasUpvals f then movRbp 0x8B#8 (f.stack + i.b) ++ refTest [0x48#8, 0x89#8, 0x50#8, 8#8] else []) ++
      movRbpDx 0x89#8 (f.stack + i.b))
  | .getupval => some (movRbp 0x8B#8 (lregs f + i.b) ++ [0x48#8, 0x8B#8, 0x40#8, 8#8] ++ movRbp 0x89#8 i.a)  -- 543-548
  | .setupval => some (movRbpDx 0x8B#8 i.a ++ movRbp 0x8B#8 (lregs f + i.b) ++ [0x48#8, 0x89#8, 0x50#8, 8#8]) -- 552-557
  | .add => some (math true E.objAdd [0x48#8, 0x8D#8, 0x44#8, 0x10#8, 0xFF#8, 0x70#8, 2#8] start i.a i.b)    -- 673-679
  | .sub => some (math true E.objSub [0x48#8, 0x29#8, 0xD0#8, 0x70#8, 5#8, 0x48#8, 0xFF#8, 0xC0#8] start i.a i.b)
  | .mult => some (math true E.objMult [0x48#8, 0xD1#8, 0xFA#8, 0x48#8, 0xFF#8, 0xC8#8, 0x48#8, 0x0F#8, 0xAF#8, 0xC2#8,
      0x70#8, 5#8, 0x48#8, 0xFF#8, 0xC0#8] start i.a i.b)                                        -- 690-699
  | .bitn => some (math false E.objBitn [0x48#8, 0xF7#8, 0xD0#8, 0x48#8, 0xFF#8, 0xC0#8] start i.a i.b) -- 789-795
  -- 701-725, 797-823: these four have no 64-bit prefix
  | .div => some (math true E.objDiv divOps start i.a i.b)
  | .rem => some (math true E.objRem remOps start i.a i.b)
  | .bitl => some (math true E.objBitl (shiftOps 0xE0#8) start i.a i.b)
  | .bitr => some (math true E.objBitr (shiftOps 0xF8#8) start i.a i.b)
  | .eq => some (argO (start - 3) 0 ++ argO i.a 1 ++ argO i.b 2 ++ callC E.vmEq ++ movRbp 0x89#8 i.a)     -- 749-759
  | .neq => some (argO (start - 3) 0 ++ argO i.a 1 ++ argO i.b 2 ++ callC E.vmNeq ++ movRbp 0x89#8 i.a)   -- 737-747
  | .lt => some (numcmp 0x7C#8 0x72#8 i.a i.b)                                                   -- 761-766
  | .lte => some (numcmp 0x7E#8 0x76#8 i.a i.b)
  | .gt => some (numcmp 0x7F#8 0x77#8 i.a i.b)
  | .gte => some (numcmp 0x7D#8 0x73#8 i.a i.b)
  | .test => some (testAsm i.a PN_TRUE PN_FALSE)                                                 -- 874-884
  | .not => some (testAsm i.a PN_FALSE PN_TRUE)
  | .cmp => some (testAsm i.a PN_TRUE PN_FALSE)
  | .ret => some (movRbp 0x8B#8 0 ++ [0xC9#8, 0xC3#8])                                           -- 1032-1035
  | _ => none

/-- The code of a jump up to the displacement of its `E9`, and the distance counted in instructions.
vm-x86.c:854-857 JMP, 886-894 TESTJMP, 896-905 NOTJMP. -/
def jump (i : Ins) : Option (List Byte × Int) :=
  match i.op with
  | .jmp => some ([0xE9#8], i.a)
  | .testjmp => some (movRbp 0x8B#8 i.a ++ [0x48#8, 0x83#8, 0xF8#8, 0x02#8, 0x74#8, 10#8] ++
      [0x48#8, 0x85#8, 0xC0#8, 0x74#8, 5#8] ++ [0xE9#8], i.b)
  | .notjmp => some (movRbp 0x8B#8 i.a ++ [0x48#8, 0x83#8, 0xF8#8, 0x02#8, 0x74#8, 5#8] ++
      [0x48#8, 0x85#8, 0xC0#8, 0x75#8, 5#8] ++ [0xE9#8], i.b)
  | _ => none

/-- vm.c:217 -/
def JUMPS_MAX : Nat := 1024

/-- Generator state: `asmb`, the array `offs` filled so far, the array `jmps` (from, to). -/
structure Gen where
  code : List Byte
  offs : List Nat
  jmps : List (Nat × Nat)

/-- vm.c:293-298 and vm-x86.c:466-468 `potion_x86_jmpedit`: fill in the displacements of the jumps that lead here. -/
def patch (pos : Nat) : List (Nat × Nat) → List Byte → Option (List Byte)
  | [], code => some code
  | (frm, to) :: js, code =>
    if to = pos then
      match Bytes.writeAt code frm (asmI ((code.length : Int) - (frm + 4))) with
      | none => none
      | some code => patch pos js code
    else patch pos js code

/-- vm-x86.c:253-264 `TAG_JMP(jpos)` after `pre`, which ends in the byte E9; `d` is the distance in instructions. -/
def tagJmp (g : Gen) (pos : Nat) (pre : List Byte) (d : Int) : Option Gen :=
  let code := g.code ++ pre
  let jpos : Int := pos + d
  if jpos ≥ pos then
    if g.jmps.length < JUMPS_MAX then
      some { g with code := code ++ asmI 0, jmps := g.jmps ++ [(code.length, (jpos + 1).toNat)] }
    else none
  else if jpos + 1 < 0 then none
  else match g.offs[(jpos + 1).toNat]? with
    | none => none
    | some o => some { g with code := code ++ asmI ((o : Int) - ((code.length : Int) + 4)) }

/-- vm.c:291-354: one turn of the loop over the instructions. -/
def emit (E : Env) (f : Proto) (pos : Nat) (g : Gen) : Option Gen :=
  if pos < JUMPS_MAX then
    match patch pos g.jmps g.code with
    | none => none
    | some code =>
      let g := { g with code := code, offs := g.offs ++ [g.code.length] }
      match jump (f.code pos) with
      | some (pre, d) => tagJmp g pos pre d
      | none => match plain E f (f.code pos) with
        | some bs => some { g with code := g.code ++ bs }
        | none => none
  else none

def emitAll (E : Env) (f : Proto) : (n pos : Nat) → Gen → Option Gen
  | 0, _, g => some g
  | n+1, pos, g => match emit E f pos g with
    | none => none
    | some g => emitAll E f n (pos + 1) g

/-- vm.c:233-251: room for the arguments of calls. -/
def protoargs (f : Proto) : Nat := f.protos.foldl (fun n g => max n (3 + g.params.length)) 4

/-- vm-x86.c:415-418 `potion_x86_setup`, 420-431 `potion_x86_stack`. -/
def frame (f : Proto) : Int := ((need f + protoargs f) * 8 + 15) / 16 * 16
def setup (f : Proto) : List Byte :=
  [0x55#8, 0x48#8, 0x89#8, 0xE5#8] ++
  (if frame f ≥ 0x80 then [0x48#8, 0x81#8, 0xEC#8] ++ asmI (frame f)
   else [0x48#8, 0x83#8, 0xEC#8, BitVec.ofInt 8 (frame f)])

/-- vm-x86.c:433-448 `potion_x86_registers`. -/
def registers (f : Proto) : List Byte :=
  argI (need f - 3) 0 ++ argI (need f - 2) 1 ++ argI (need f - 1) 2 ++ argI 0 2 ++
  (if hasUpvals f then (List.range f.localsize).flatMap fun (k : Nat) => movq (f.stack + k) PN_NIL else [])

/-- vm.c:268-284 and vm-x86.c:450-452 `potion_x86_local`: store the arguments in their locals. -/
def locals (f : Proto) : (argx : Nat) → List Nat → List Byte
  | _, [] => []
  | k, n :: ns => argI (f.stack + n) (3 + k) ++ locals f (k + 1) ns

/-- vm-x86.c:454-464 `potion_x86_upvals`; `sizeof(struct PNClosure)` is 48. -/
def upvals (f : Proto) (k : Nat) : List Byte :=
  let n : Int := 48 + (k + 1) * 8
  movRbp 0x8B#8 (need f - 2) ++ [0x48#8, 0x8B#8] ++
    (if n ≥ 0x80 then 0x80#8 :: asmI n else [0x40#8, BitVec.ofInt 8 n]) ++ movRbp 0x89#8 (lregs f + k)

/-- vm.c:231-287: everything before the first instruction. -/
def prologue (f : Proto) : List Byte :=
  setup f ++ registers f ++ locals f 0 f.params ++ (List.range f.upvalsize).flatMap (upvals f)

/-- vm.c:221-365 `potion_jit_proto`. -/
def jit (E : Env) (f : Proto) : Option (List Byte) :=
  (emitAll E f f.len 0 { code := prologue f, offs := [], jmps := [] }).map Gen.code

/-- vm-x86.c:1122-1151 `potion_x86_ivars`, 64-bit: the code of `vt->ivfunc`, from variable number `i` on; `us` are the
`PN_UNIQ`s of the variables. -/
def ivarsCode : (i : Nat) → List (BitVec 32) → List Byte
  | _, [] => [0x48#8, 0xB8#8] ++ asmN (-1#64) ++ [0xC3#8]
  | i, u :: us => ([0x81#8, 0xFF#8] ++ Bytes.leBytes 4 u.toNat) ++ ([0x75#8, 6#8] ++ (([0xB8#8] ++ asmI i) ++ ([0xC3#8] ++ ivarsCode (i + 1) us)))

end Potion.Jit
