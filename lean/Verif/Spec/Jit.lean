import Verif.Model.X86
import Verif.Model.Jit
/-!
What is asked of generated machine code (C58): the calling convention, the helpers it calls, and how interpreter values
correspond to machine words. Nothing here mentions how the code is generated.
-/
namespace Potion.Jit
open Potion Potion.X86 Potion.Vm

/-- `%rsp`, `%rbp` and the other registers a function must leave as they were: `%rbx`, `%r12` to `%r15`. -/
def saved (m : Mach) : PN × PN × PN × PN × PN × PN × PN :=
  (m.regs 4, m.regs 5, m.regs 3, m.regs 12, m.regs 13, m.regs 14, m.regs 15)

/-- Memory a called function must not change unless that is its purpose: the stack from the stack pointer up, and the
words `H` of the heap. -/
def Live (H : PN → Prop) (m : Mach) (A : PN) : Prop := m.regs 4 ≤ A ∨ H A

/-- A call that only computes a result. -/
def Kept (H : PN → Prop) (m m' : Mach) : Prop := saved m' = saved m ∧ ∀ A, Live H m A → m'.mem A = m.mem A

/-- What the code may assume of the C functions it calls. They follow the x86-64 calling convention, for which the stack
pointer must be a multiple of 16. `potion_f_values(P, cl)` (vm-x86.c:481-483) returns the tuple of constants of the
function, at `tup`. `potion_vm_eq`/`potion_vm_neq` (vm.c:418-438) compare the words `word` (everything but pointers to boxed
doubles and to moved objects) as words. Simplification: objects do not move during the run. -/
structure Helpers (E : Env) (ext : Ext) (H : PN → Prop) (cl tup : PN) (word : PN → Prop) : Prop where
  values : ∀ m : Mach, (m.regs rsp).toNat % 16 = 0 → m.regs rdi = E.P → m.regs rsi = cl → ∃ m', ext E.fValues m = some m' ∧
    Kept H m m' ∧ m'.regs rax = tup
  eq : ∀ m : Mach, (m.regs rsp).toNat % 16 = 0 → m.regs rdi = E.P → word (m.regs rsi) → word (m.regs rdx) →
    ∃ m', ext E.vmEq m = some m' ∧ Kept H m m' ∧ m'.regs rax = pnBool (m.regs rsi == m.regs rdx)
  neq : ∀ m : Mach, (m.regs rsp).toNat % 16 = 0 → m.regs rdi = E.P → word (m.regs rsi) → word (m.regs rdx) →
    ∃ m', ext E.vmNeq m = some m' ∧ Kept H m m' ∧ m'.regs rax = pnBool (m.regs rsi != m.regs rdx)

/-- The machine word of an interpreter value, where `loc n` is the address of heap object `n`. A function pointer stands
for a word nothing is known of (uninitialised stack). -/
def Rep (loc : Nat → PN) : Val → PN → Prop
  | .imm w, x => x = w
  | .obj n, x => x = loc n
  | .fn _, _ => True

/-- A register, a local variable, an upvalue of `f`. -/
def IsReg (f : Proto) (x : Int) : Prop := 0 ≤ x ∧ x < f.stack
def IsLoc (f : Proto) (x : Int) : Prop := 0 ≤ x ∧ x < f.localsize
def IsUp (f : Proto) (x : Int) : Prop := 0 ≤ x ∧ x < f.upvalsize

/-- Operands as the compiler makes them. The last conditions of the comparisons, of BITN and of RETURN are restrictions:
the generated code is wrong without them. -/
def Operands (f : Proto) (i : Ins) : Prop :=
  match i.op with
  | .move | .add | .sub | .mult | .div | .rem | .eq | .neq => IsReg f i.a ∧ IsReg f i.b
  | .lt | .lte | .gt | .gte => IsReg f i.a ∧ IsReg f i.b ∧ (i.a ≤ 15 ∨ 31 < i.a)
  | .loadk => IsReg f i.a ∧ i.b < 2^12
  | .loadpn | .self | .not | .test | .testjmp | .notjmp => IsReg f i.a
  | .getlocal | .setlocal => IsReg f i.a ∧ IsLoc f i.b
  | .getupval | .setupval => IsReg f i.a ∧ IsUp f i.b
  | .bitn => IsReg f i.a ∧ i.b = i.a
  | .jmp => True
  | .ret => i.a = 0
  | _ => False

/-- Where an instruction can lead. -/
def Leads (i : Ins) (pos : Nat) (to : Int) : Prop :=
  match i.op with
  | .ret => False
  | .jmp => to = pos + i.a + 1
  | .testjmp | .notjmp => to = pos + 1 ∨ to = pos + i.b + 1
  | _ => to = pos + 1

/-- The functions the theorem is about: no function inside uses variables of this one, at most 17 parameters, the modelled
instructions with their operands in range, and control stays inside the code. -/
structure Simple (f : Proto) : Prop where
  inner : ∀ g ∈ f.protos, g.upvalsize = 0
  size : f.stack + f.localsize + f.upvalsize + protoargs f < 2^16
  regs : 1 ≤ f.stack
  code : 0 < f.len
  params : f.params.length ≤ 17 ∧ ∀ n ∈ f.params, n < f.localsize
  ops : ∀ k, k < f.len → Operands f (f.code k)
  flow : ∀ k, k < f.len → ∀ to, Leads (f.code k) k to → 0 ≤ to ∧ to < f.len

/-- Integers that division handles. -/
def Half (x : PN) : Prop := -(2^30) ≤ pnInt x ∧ pnInt x < 2^30

/-- Conditions on a step of the interpreter under which the machine code does the same: integer arithmetic does not
overflow into a boxed double; compared integers have the same sign (the interpreter compares the words unsigned);
division and remainder are of integers of 31 bits and not negative;
truth tests and equality are of known words. -/
def Tame (word : PN → Prop) (s : State) : Prop :=
  let i := s.f.code s.pos
  match i.op with
  | .add | .sub | .mult => ∀ t, s.step = .run t → t.heap = s.heap
  | .lt | .lte | .gt | .gte => ∀ x y, s.rd s.rbase i.a = some (.imm x) → s.rd s.rbase i.b = some (.imm y) → x.msb = y.msb
  | .div => ∀ x y, s.rd s.rbase i.a = some (.imm x) → s.rd s.rbase i.b = some (.imm y) →
      Half x ∧ Half y ∧ 0 ≤ (pnInt x).tdiv (pnInt y)
  | .rem => ∀ x y, s.rd s.rbase i.a = some (.imm x) → s.rd s.rbase i.b = some (.imm y) →
      Half x ∧ Half y ∧ 0 ≤ (pnInt x).tmod (pnInt y)
  | .test | .not | .testjmp | .notjmp => ∀ p, s.rd s.rbase i.a ≠ some (.fn p)
  | .eq | .neq => ∀ x y, s.rd s.rbase i.a = some (.imm x) → s.rd s.rbase i.b = some (.imm y) → word x ∧ word y
  | _ => True

/-- The word of argument `k` after the interpreter, the closure and the receiver: registers, then the stack. -/
def argWord (m : Mach) : Nat → PN
  | 0 => m.regs rcx
  | 1 => m.regs r8
  | 2 => m.regs r9
  | k+3 => m.mem (m.regs rsp + BitVec.ofNat 64 (8 * (k + 1)))

/-- The interpreter's heap in memory: reference cells hold their contents in their second word. -/
def HeapRep (loc : Nat → PN) (heap : List Obj) (mem : PN → PN) : Prop :=
  ∀ (n : Nat) (v : Val), heap[n]? = some (Obj.ref v) → Rep loc v (mem (loc n + 8#64))

/-- Bytes of stack the code may use, below the return address. -/
def InUse (f : Proto) (sp : PN) (A : PN) : Prop := sp.toNat - (frame f + 8).toNat ≤ A.toNat ∧ A.toNat < sp.toNat

/-- Where things are: objects at multiples of 8 and not at address 0, reference cells apart from each other and from the
stack in use (and the return address). -/
structure Placed (f : Proto) (loc : Nat → PN) (H : PN → Prop) (heap : List Obj) (sp : PN) : Prop where
  obj : ∀ n, aligned (loc n) = true ∧ loc n ≠ 0#64
  ref : ∀ (n : Nat) v, heap[n]? = some (Obj.ref v) → H (loc n + 8#64)
  apart : ∀ (n n' : Nat) v v', heap[n]? = some (Obj.ref v) → heap[n']? = some (Obj.ref v') → loc n = loc n' → n = n'
  stack : ∀ A, H A → ¬ InUse f sp A ∧ A ≠ sp

/-- The tuple of constants is in memory at `tup` (its elements start 16 bytes into it), in the heap, and no reference cell
is part of it. -/
structure Consts (values : List PN) (loc : Nat → PN) (H : PN → Prop) (heap : List Obj) (tup : PN) (mem : PN → PN) : Prop where
  al : aligned tup = true
  word : ∀ (b : Nat) w, values[b]? = some w → mem (tup + BitVec.ofInt 64 (16 + b * 8)) = w ∧ H (tup + BitVec.ofInt 64 (16 + b * 8))
  apart : ∀ (b : Nat) w, values[b]? = some w → ∀ (n : Nat) v, heap[n]? = some (Obj.ref v) →
    loc n + 8#64 ≠ tup + BitVec.ofInt 64 (16 + b * 8)

/-- No value is a reference cell: those are only in closures. -/
def NoRef (heap : List Obj) : Val → Prop
  | .obj n => ∀ v, heap[n]? ≠ some (Obj.ref v)
  | _ => True

/-- A call `f(P, cl, me, args...)` by the calling convention; the words at the end of the closure are the upvalues. -/
structure Entry (E : Env) (f : Proto) (loc : Nat → PN) (H : PN → Prop) (heap : List Obj) (cl tup : PN) (me : Val)
    (up args : List Val) (m : Mach) : Prop where
  start : m.rip = 0
  room : (m.regs rsp).toNat % 16 = 8 ∧ (frame f + 8).toNat ≤ (m.regs rsp).toNat ∧ (m.regs rsp).toNat + 256 ≤ 2^64
  interp : m.regs rdi = E.P
  clos : m.regs rsi = cl
  recv : Rep loc me (m.regs rdx) ∧ NoRef heap me
  nargs : args.length = f.params.length
  argw : ∀ k v, args[k]? = some v → Rep loc v (argWord m k) ∧ NoRef heap v
  nup : up.length = f.upvalsize
  upw : ∀ k v, up[k]? = some v → aligned (cl + BitVec.ofNat 64 (48 + 8 * (k + 1))) = true ∧
    ¬ InUse f (m.regs rsp) (cl + BitVec.ofNat 64 (48 + 8 * (k + 1))) ∧
    Rep loc v (m.mem (cl + BitVec.ofNat 64 (48 + 8 * (k + 1))))
  cells : HeapRep loc heap m.mem ∧ ∀ (n : Nat) v, heap[n]? = some (Obj.ref v) → NoRef heap v
  placed : Placed f loc H heap (m.regs rsp)
  consts : Consts f.values loc H heap tup m.mem

/-- The number of words of the interpreter's frame, and the slot in which the code keeps word `k` of it (slot `x` is the
word `8(x+1)` bytes below the frame base, which is 8 bytes below the stack pointer at the call). -/
def words (f : Proto) : Nat := f.upvalsize + f.localsize + 1 + f.stack
def slotOf (f : Proto) (k : Nat) : Int :=
  if k < f.upvalsize then f.stack + f.localsize + k
  else if k < f.upvalsize + f.localsize then f.stack + (k - f.upvalsize : Int)
  else if k = f.upvalsize + f.localsize then f.stack + f.localsize + f.upvalsize + 2
  else (k : Int) - (f.upvalsize + f.localsize + 1)

/-- What is found on the stack at the call: the interpreter's frame holds the same unknown words (`.fn`, for a word nothing
is known of, always fits). -/
def Stale (f : Proto) (loc : Nat → PN) (heap : List Obj) (stk : Nat → Val) (m : Mach) : Prop :=
  ∀ k, k < words f → NoRef heap (stk k) ∧ Rep loc (stk k) (m.mem (m.regs rsp - 8#64 + BitVec.ofInt 64 (-((slotOf f k + 1) * 8))))

/-- The interpreter in state `s` comes to state `t` (possibly `s` itself). -/
inductive Visits : State → State → Prop
  | here (s) : Visits s s
  | next {s t u} : s.step = .run t → Visits t u → Visits s u

/-- What the caller finds when the generated code has returned to `to` with the machine in state `m'`, for a call in state
`m` of a function whose interpreter leaves the value `v` and the heap `heap`: the address after the call, the value in
`%rax`, the stack pointer popped, the registers and the caller's part of the stack as they were, the heap as the
interpreter leaves it. `%rbx` is kept only for functions of at most three parameters. -/
structure Returned (f : Proto) (loc : Nat → PN) (H : PN → Prop) (v : Val) (heap : List Obj) (m m' : Mach) (to : PN) : Prop where
  addr : to = m.mem (m.regs rsp)
  value : Rep loc v (m'.regs rax)
  sp : m'.regs rsp = m.regs rsp + 8#64
  bp : m'.regs rbp = m.regs rbp
  kept : m'.regs 12 = m.regs 12 ∧ m'.regs 13 = m.regs 13 ∧ m'.regs 14 = m.regs 14 ∧ m'.regs 15 = m.regs 15
  bx : f.params.length ≤ 3 → m'.regs rbx = m.regs rbx
  stack : ∀ A : PN, (m.regs rsp).toNat ≤ A.toNat → ¬ H A → m'.mem A = m.mem A
  cells : HeapRep loc heap m'.mem

end Potion.Jit
