import Verif.Spec.Bytecode
/-!
When a function compiled by the whole compiler (Model/CompileAll.lean) is the function the interpreter is modelled on (Model/Vm.lean `Proto`): the same
`struct PNProto`, field by field.
-/
namespace Potion.CompileAll
open Potion Potion.Peg

/-- opcodes.h:9-60: the opcode of an instruction of the interpreter. -/
def opcode : Vm.Opc → Op
  | .move => .move | .loadk => .loadk | .loadpn => .loadpn | .self => .self | .getlocal => .getlocal | .setlocal => .setlocal
  | .getupval => .getupval | .setupval => .setupval | .add => .add | .sub => .sub | .mult => .mult | .div => .div | .rem => .rem
  | .bitl => .bitl | .bitr => .bitr | .not => .not | .cmp => .cmp | .eq => .eq | .neq => .neq | .lt => .lt | .lte => .lte
  | .gt => .gt | .gte => .gte | .bitn => .bitn | .jmp => .jmp | .test => .test | .testjmp => .testjmp | .notjmp => .notjmp
  | .call => .call | .ret => .ret | .proto => .proto | .other => .none
/-- The instruction. -/
def insOf (i : Vm.Ins) : Ins := ⟨opcode i.op, i.a, i.b⟩

/-- `p` and `f` are the same function: registers, locals and upvalues in the same number, the same constants and instructions; the parameters of `f` are names
without types and defaults, each held in the local `p` gives it; the functions written in it are the same, one by one. -/
inductive Alike : Vm.Proto → Fn → Prop
  | mk {p f} : f.native = false → p.stack = f.stack → p.localsize = f.locals.length → p.upvalsize = f.upvals.length →
      f.values = p.values.map .imm → p.len = f.len → (∀ k, f.code k = insOf (p.code k)) →
      (∃ xs : List (List (BitVec 8)), f.sig = xs.map .str ∧ p.params.map some = f.sig.map (find f.locals)) →
      p.minargs = f.sig.length → p.defaults = f.sig.map (fun _ => none) →
      p.protos.length = f.protos.length → (∀ (i : Nat) (q : Vm.Proto) (g : Fn), p.protos[i]? = some q → f.protos[i]? = some g → Alike q g) → Alike p f

end Potion.CompileAll
