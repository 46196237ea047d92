import Verif.Model.Vm
/-!
Well-formed code and call frames, for the theorems about function calls.
-/
namespace Potion.Vm
open Potion

/-- First register of a frame of `g` at `c`. -/
def rb (g : Proto) (c : Nat) : Nat := c + g.upvalsize + g.localsize + 1

/-- Register and variable operands are not negative (jump distances may be). -/
def InsOk (i : Ins) : Prop := i.op ≠ .jmp → 0 ≤ i.a ∧ (i.op = .setlocal ∨ i.op = .getlocal → 0 ≤ i.b)

/-- Well-formed functions: the operands of their own code and of all nested functions are not negative,
instruction positions fit the interpreter's 32-bit counter, parameters have no default values,
and each parameter has a local of its own. -/
inductive WFp : Proto → Prop
  | mk {g : Proto} (len : g.len ≤ 2^32) (nodef : ∀ d ∈ g.defaults, d = none)
      (params : g.params.Nodup ∧ ∀ i ∈ g.params, i < g.localsize) (code : ∀ k, InsOk (g.code k)) (protos : ∀ h ∈ g.protos, WFp h) : WFp g

/-- All closures on the heap are over well-formed functions. -/
def HeapOk (h : List Obj) : Prop := ∀ (n : Nat) (g : Proto) (up : List Val), h[n]? = some (Obj.clo g up) → WFp g

/-- `n` turns of the interpreter, none of which ends the run. -/
def State.goes : Nat → State → State → Prop
  | 0, s, s' => s' = s
  | n+1, s, s' => ∃ t, s.step = .run t ∧ State.goes n t s'

end Potion.Vm
