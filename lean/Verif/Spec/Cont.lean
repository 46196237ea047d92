import Verif.Model.Cont
/-!
What resuming a continuation means: the call of `here` returns once more.
-/
namespace Potion.Cont
open Potion Potion.X86

/-- The number of words from the stack pointer to the base of the stack, both included. -/
def words (m : Mach) (cstack : PN) : Nat := (cstack.toNat - (m.regs rsp).toNat) / 8 + 1

/-- The words of the stack that are in use, without the one at the stack pointer itself (it belongs to `here`). -/
def OnStack (m : Mach) (cstack a : PN) : Prop := (m.regs rsp).toNat < a.toNat ∧ a.toNat ≤ cstack.toNat ∧ a.toNat % 8 = 0

/-- The part of the address space an object of `k` words at `a` occupies. -/
def Within (a : PN) (k : Nat) (x : PN) : Prop := a.toNat ≤ x.toNat ∧ x.toNat < a.toNat + 8 * k

/-- The situation in which `here` runs: a stack of aligned words below the base with a frame on it, and room for `k` words at
`cc`, apart from the stack. -/
structure Fits (m : Mach) (cstack cc : PN) (k : Nat) : Prop where
  base : cstack.toNat < 2 ^ 63 - 8
  below : (m.regs rsp).toNat < (m.regs rbp).toNat
  frame : (m.regs rbp).toNat + 8 ≤ cstack.toNat
  aligned : cstack.toNat % 8 = 0 ∧ (m.regs rsp).toNat % 8 = 0 ∧ (m.regs rbp).toNat % 8 = 0 ∧ cc.toNat % 8 = 0
  room : cc.toNat + 8 * k < 2 ^ 64
  apart : cc.toNat + 8 * k ≤ (m.regs rsp).toNat ∨ cstack.toNat < cc.toNat

/-- The state `m'` is that in which the function running in `m` returns `v` to the address `ra`: its frame is popped, the
callee-saved registers and the rest of the stack are as in `m`. -/
structure Returns (m : Mach) (cstack v : PN) (m' : Mach) (ra : PN) : Prop where
  addr : ra = m.mem (m.regs rbp + 8#64)
  result : m'.regs rax = v
  sp : m'.regs rsp = m.regs rbp + 16#64
  bp : m'.regs rbp = m.mem (m.regs rbp)
  saved : ∀ r ∈ [rbx, r12, r13, r14, r15], m'.regs r = m.regs r
  stack : ∀ a, OnStack m cstack a → m'.mem a = m.mem a

/-- The registers the compiler may give to the operands of the assembly: different ones, none of which the assembly sets
before it has used them (the clobber list, and the frame pointer). -/
def OpsOk (o0 o1 o2 : Nat) : Prop := o0 ≠ o1 ∧ o0 ≠ o2 ∧ o1 ≠ o2 ∧ ∀ o ∈ [o0, o1, o2], o ≠ rax ∧ o ≠ rbx ∧ o ≠ rsp ∧ o ≠ rbp

/-- The continuation at `cc` is in `m'` what it was in `m` (apart from the word that is used only while resuming). -/
def Intact (cc : PN) (n : Nat) (m m' : Mach) : Prop := ∀ i, i < n + 8 → i ≠ 3 → m'.mem (slot cc i) = m.mem (slot cc i)

end Potion.Cont
