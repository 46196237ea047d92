import Verif.Model.X86
/-!
Model of continuations (/repo/core/callcc.c 18-165; struct PNCont in /repo/core/potion.h 519-526; their copying in
/repo/core/gc.c 380-382, 394-411), for x86-64 without address sanitizer. The inline assembly is executed instruction by
instruction on the machine of Model/X86.lean. What the C compiler makes of the rest of the two functions is not modelled:
`callcc` is entered in the state its body has after the allocation, so its callee-saved registers are those of the body
(they are the caller's if the compiled body does not use them), and its return is taken to be `leave; ret`.
-/
namespace Potion.Cont
open Potion Potion.X86

abbrev r12 : Nat := 12
abbrev r13 : Nat := 13
abbrev r14 : Nat := 14
abbrev r15 : Nat := 15

/-- An instruction of the inline assembly: one of Model/X86.lean, or `movq $v, d(%base)`. -/
inductive Asm
  | i (i : Instr)
  | movq (v : PN) (base : Nat) (d : Int)
  deriving DecidableEq

/-- callcc.c:41-62. `o0`, `o1`, `o2`: the registers the compiler chose for the operands %0, %1, %2. Labels are positions
in the list. -/
def yieldAsm (o0 o1 o2 : Nat) : List Asm := [
  .i (.mov (.reg rsp) (.mem o2 8)),
  .i (.mov (.reg rbp) (.mem o2 16)),
  .i (.mov (.reg rbx) (.reg o2)),
  .i (.alui .add o2 0x48),
  -- loop:
  .i (.mov (.reg rax) (.mem o2 0)),
  .i (.alui .add o0 8),
  .i (.mov (.mem o0 0) (.reg rax)),
  .i (.alui .add o2 8),
  .i (.alu .cmp o1 o0),
  .i (.jcc .ne (-6)),
  .i (.mov (.reg rax) (.mem rbx 0x18)),
  .movq 0 rbx 0x18,
  .i (.mov (.reg r12) (.mem rbx 0x28)),
  .i (.mov (.reg r13) (.mem rbx 0x30)),
  .i (.mov (.reg r14) (.mem rbx 0x38)),
  .i (.mov (.reg r15) (.mem rbx 0x40)),
  .i (.mov (.reg rbx) (.mem rbx 0x20)),
  .i .leave,
  .i .ret]

/-- One instruction. -/
def step (code : List Asm) (m : Mach) : Out :=
  match code[m.rip]? with
  | none => .fault
  | some (.i i) => m.exec (fun _ _ => none) (m.rip + 1) i
  | some (.movq v b d) =>
    if aligned (m.ea (.mem b d)) then .run { m.put (m.ea (.mem b d)) v with rip := m.rip + 1 } else .fault

/-- At most `k` instructions; `none`: still running. -/
def steps (code : List Asm) : Nat → Mach → Option Out
  | 0, _ => none
  | k+1, m => match step code m with
    | .run m => steps code k m
    | r => some r

/-- potion.h:519-526: the address of `cc->stack[i]`. -/
def slot (cc : PN) (i : Nat) : PN := cc + BitVec.ofNat 64 (16 + 8 * i)

/-- What calling a continuation does: it returns nil with a message, or runs the assembly. -/
inductive Yield
  | nil
  | asm (r : Option Out)

/-- callcc.c:18-92 `potion_continuation_yield` of the continuation at `cc`; `cstack` is `P->mem->cstack`. At most `k`
instructions of the assembly. -/
def yield (o0 o1 o2 : Nat) (cstack cc : PN) (k : Nat) (m : Mach) : Yield :=
  if cstack ≠ m.mem (slot cc 0) then .nil
  else
    let m1 := m.put (slot cc 3) cc
    .asm (steps (yieldAsm o0 o1 o2) k
      { ((m1.set o0 (m1.mem (slot cc 1))).set o1 (m1.mem (slot cc 0))).set o2 (slot cc 0) with rip := 0 })

/-- callcc.c:118-121: the number of words from `%rsp` to the base of the stack, both included. -/
def depth (cstack sp : PN) : Int := (cstack.toInt - sp.toInt) / 8 + 1

/-- PN_MEMCPY_N of `n` words. -/
def copyWords (m : Mach) (dst src : PN) : Nat → Mach
  | 0 => m
  | n+1 => (copyWords m dst src n).put (dst + BitVec.ofNat 64 (8 * n)) (m.mem (src + BitVec.ofNat 64 (8 * n)))

/-- callcc.c:99-165 `potion_callcc` from the allocation at `cc` to its return, not included. `none`: `potion_fatal`, or
(callcc.c:158) a negative number of words to copy. `len` shares its word with padding. -/
def callcc (cstack cc : PN) (m : Mach) : Option Mach :=
  let n := depth cstack (m.regs rsp)
  if n < 1 then none
  else
    let m := m.put (cc + 8#64) (BitVec.ofInt 64 (n + 3))
    let m := m.put (slot cc 0) cstack
    let m := m.put (slot cc 1) (m.regs rsp)
    let m := m.put (slot cc 2) (m.regs rbp)
    let m := m.put (slot cc 3) 0
    let m := m.put (slot cc 4) (m.regs rbx)
    let m := m.put (slot cc 5) (m.regs r12)
    let m := m.put (slot cc 6) (m.regs r13)
    let m := m.put (slot cc 7) (m.regs r14)
    let m := m.put (slot cc 8) (m.regs r15)
    some (copyWords m (slot cc 9) (m.regs rsp + 8#64) (n - 1).toNat)

/-- gc.c:380-382 `potion_type_size` of the continuation at `cc`, in words: the struct and `len` words. -/
def sizeWords (m : Mach) (cc : PN) : Nat := 2 + ((m.mem (cc + 8#64)).setWidth 32).toNat

/-- gc.c:394-406 `potion_gc_copy`: the memory copy of the object at `cc`. -/
def gcCopy (m : Mach) (cc dst : PN) : Mach := copyWords m dst cc (sizeWords m cc)

end Potion.Cont
