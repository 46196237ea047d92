import Verif.Model.Number
/-!
Model of the bytecode interpreter (/repo/core/vm.c 596-951) for the instructions that deal with immediates, locals,
upvalues, jumps, closures and calls of compiled functions. Every other instruction, an operand outside the fragment
(method dispatch, doubles) and every access outside the stack is `stuck`.
-/
namespace Potion.Vm
open Potion

/-- opcodes.h:9-60: the modelled opcodes (`other` stands for the rest). -/
inductive Opc
  | move | loadk | loadpn | self | getlocal | setlocal | getupval | setupval
  | add | sub | mult | div | rem | bitl | bitr
  | not | cmp | eq | neq | lt | lte | gt | gte | bitn
  | jmp | test | testjmp | notjmp | call | ret | proto | other
  deriving DecidableEq, Repr

/-- opcodes.h:70-74 `PN_OP` after decoding (`Model/Op.lean` relates it to the 32-bit word). -/
structure Ins where
  op : Opc
  a : Int
  b : Int
  deriving DecidableEq, Repr

/-- opcodes.h:72-73: what a 12-bit signed field keeps of an `int`. -/
def trunc12 (i : Int) : Int := Int.bmod i 4096

/-- potion.h:454-471 `struct PNProto`: the object's identity, number of upvalues and locals, for each parameter the index
of its local (vm.c:652-657), the number of mandatory parameters and the value each parameter gets when the caller leaves
it out (vm.c:847-852; `none` = the default is read outside the tuple `potion_sig_at` returns), initial size of the
register file, constants, nested functions, instructions. -/
structure Proto where
  id : Nat
  upvalsize : Nat
  localsize : Nat
  params : List Nat
  minargs : Nat
  defaults : List (Option PN)
  stack : Nat
  values : List PN
  protos : List Proto
  code : Nat → Ins
  len : Nat

/-- A word on the stack: an immediate (or raw integer), a heap object, or a pointer to a function. -/
inductive Val
  | imm (w : PN)
  | obj (n : Nat)
  | fn (p : Proto)

/-- Heap objects: a boxed double (its contents are not modelled: it remembers the operation), a reference cell
(`PNWeakRef`), a closure with the data words after the function (vm.c:909-925). -/
inductive Obj
  | dbl (op : AOp) (x y : Int)
  | ref (v : Val)
  | clo (f : Proto) (up : List Val)

/-- vm.c:597-611: the interpreter's variables. `reg`, `locals`, `upvals` are derived from `cur` (vm.c:634-636). `grow n`
is how much `f->stack` of function `n` has been incremented by calls that left out arguments (vm.c:853). -/
structure State where
  f : Proto
  pos : Nat
  cur : Nat
  stack : Nat → Val
  heap : List Obj
  grow : Nat → Nat

/-- vm.c:216 `STACK_MAX`. -/
def STACK_MAX : Nat := 4096

/-- Result of a step. -/
inductive Res
  | run (s : State)
  | done (v : Val) (s : State)
  | stuck

/-- vm.c:635-636 -/
def State.lbase (s : State) : Nat := s.cur + s.f.upvalsize
def State.rbase (s : State) : Nat := s.cur + s.f.upvalsize + s.f.localsize + 1

/-- `PN_INT(f->stack)`. -/
def State.fsize (s : State) (f : Proto) : Nat := f.stack + s.grow f.id

/-- The stack word `base + i`; `none` outside the array. -/
def addr (base : Nat) (i : Int) : Option Nat :=
  if (base : Int) + i < 0 then none
  else if ((base : Int) + i).toNat < STACK_MAX then some ((base : Int) + i).toNat else none

/-- A read of stack word `base + i`. -/
def State.rd (s : State) (base : Nat) (i : Int) : Option Val :=
  match addr base i with
  | some k => some (s.stack k)
  | none => none
/-- A write of stack word `base + i`. -/
def State.wr (s : State) (base : Nat) (i : Int) (v : Val) : Option State :=
  match addr base i with
  | some k => some { s with stack := fun j => if j = k then v else s.stack j }
  | none => none

/-- `reg[i] = v; pos++`. -/
def State.setReg (s : State) (i : Int) (v : Val) : Res :=
  match s.wr s.rbase i v with
  | none => .stuck
  | some s => .run { s with pos := s.pos + 1 }

/-- potion.h:164 `PN_TEST` of any word. -/
def vtest : Val → Bool
  | .imm w => pnTest w
  | _ => true

/-- `PN_IS_REF(v)`: the reference cell, if `v` points to one. -/
def State.isRef (s : State) : Val → Option Nat
  | .obj n => match s.heap[n]? with
    | some (.ref _) => some n
    | _ => none
  | _ => none

/-- `PN_DEREF`. -/
def State.deref (s : State) (n : Nat) : Option Val :=
  match s.heap[n]? with
  | some (.ref v) => some v
  | _ => none
def State.setRef (s : State) (n : Nat) (v : Val) : State := { s with heap := s.heap.set n (.ref v) }

/-- vm.c:748-754, 790-791: arithmetic on two integers (`Model/Number.lean`); anything else is dispatched to methods. -/
def State.math (s : State) (op : AOp) (checked : Bool) (i : Ins) : Res :=
  match s.rd s.rbase i.a, s.rd s.rbase i.b with
  | some (.imm x), some (.imm y) =>
    if isInt x && isInt y then
      if checked then
        match vmMath3 op (fun k => ((k, 0) : Int × Int)) (fun p q => (p.1, q.1)) x y with
        | .imm w => s.setReg i.a (.imm w)
        | .dbl d => State.setReg { s with heap := s.heap ++ [.dbl op d.1 d.2] } i.a (.obj s.heap.length)
      else match vmMath2 op x y with
        | some w => s.setReg i.a (.imm w)
        | none => .stuck
    else .stuck
  | _, _ => .stuck

/-- vm.c:409-416 -/
def State.ncmp (s : State) (c : COp) (i : Ins) : Res :=
  match s.rd s.rbase i.a, s.rd s.rbase i.b with
  | some (.imm x), some (.imm y) => if isInt x && isInt y then s.setReg i.a (.imm (vmNumCmp c x y)) else .stuck
  | _, _ => .stuck

/-- vm.c:418-443 `potion_vm_eq`/`potion_vm_neq` on immediates; pointers are not modelled. -/
def State.veq (s : State) (want : Bool) (i : Ins) : Res :=
  match s.rd s.rbase i.a, s.rd s.rbase i.b with
  | some (.imm x), some (.imm y) => s.setReg i.a (.imm (pnBool ((x == y) == want)))
  | _, _ => .stuck

/-- vm.c:912-922: the upvalue words of a new closure, taken from the `n` instructions after PROTO. A captured local is
wrapped in a new reference cell unless it already is one (objmodel.c:481-486). -/
def State.capture (s : State) : (n : Nat) → (acc : List Val) → Option (State × List Val)
  | 0, acc => some (s, acc)
  | n+1, acc =>
    let s := { s with pos := s.pos + 1 }
    let i := s.f.code s.pos
    match i.op with
    | .getupval => match s.rd s.cur i.b with
      | some v => State.capture s n (acc ++ [v])
      | none => none
    | .getlocal => match s.rd s.lbase i.b with
      | some v =>
        -- vm.c:917 `potion_ref(P, locals[op.b])`
        match s.isRef v with
        | some _ => State.capture s n (acc ++ [v])
        | none => match (State.wr { s with heap := s.heap ++ [.ref v] } s.lbase i.b (.obj s.heap.length)) with
          | some s' => State.capture s' n (acc ++ [.obj s.heap.length])
          | none => none
      | none => none
    | _ => none

/-- vm.c:643-658: copy upvalues and arguments into a new frame. -/
def State.putAll (s : State) (base : Nat) : (i : Nat) → List Val → Option State
  | _, [] => some s
  | i, v :: vs => match s.wr base i v with
    | some s => State.putAll s base (i+1) vs
    | none => none
def State.putParams (s : State) (base : Nat) : List (Nat × Val) → Option State
  | [] => some s
  | (i, v) :: vs => match s.wr base i v with
    | some s => State.putParams s base vs
    | none => none

/-- Read `n` words from `base + i`. -/
def State.reads (s : State) (base : Nat) : (n : Nat) → (i : Int) → Option (List Val)
  | 0, _ => some []
  | n+1, i => match s.rd base i, State.reads s base n (i+1) with
    | some v, some vs => some (v :: vs)
    | _, _ => none

/-- vm.c:630-659: `reentry` with `pos == 0`. Locals are *not* cleared (the memset is commented out, vm.c:641-642). -/
def State.enter (s : State) (self : Val) (up args : List Val) : Option State :=
  if s.cur ≥ STACK_MAX then none else
  match s.wr s.rbase (-1) self with
  | none => none
  | some s => match s.wr s.rbase 0 self with
    | none => none
    | some s => match s.putAll s.cur 0 up with
      | none => none
      | some s => s.putParams s.lbase (s.f.params.zip args)

/-- vm.c:846-855: fill in parameters `k`, `k+1`, ... of a call whose first argument is at register `r`; each one makes the
caller's register file one larger. -/
def State.fill (s : State) (r : Int) : (k : Nat) → List (Option PN) → Option State
  | _, [] => some s
  | k, d :: ds => match d with
    | none => none
    | some w => match s.wr s.rbase (r + k) (.imm w) with
      | none => none
      | some s => State.fill { s with grow := fun n => if n = s.f.id then s.grow n + 1 else s.grow n } r (k+1) ds

/-- The values for the parameters from number `k` on. -/
def Proto.left (g : Proto) (k : Nat) : List (Option PN) := ((List.range g.params.length).drop k).map fun j => (g.defaults[j]?).join

/-- vm.c:440-457 `potion_sig_check`: without arguments there is no check. -/
def sigCheck (g : Proto) (numargs : Int) : Bool :=
  numargs == 0 || (decide ((g.minargs : Int) ≤ numargs) && decide (numargs ≤ g.params.length))

/-- vm.c:811-872: CALL of a closure over a compiled function when the frame fits (vm.c:831). A function without parameters
takes any arguments (its closure has no signature, objmodel.c:21-29). A call with a wrong number of arguments returns
from the interpreter with an error object (vm.c:845), which is not modelled, nor are other calls. -/
def State.call (s : State) (i : Ins) : Res :=
  match s.rd s.rbase i.a with
  | some (.obj n) => match s.heap[n]? with
    | some (.clo g up) =>
      if s.rbase + s.fsize s.f + s.f.upvalsize + s.f.localsize + 8 ≥ STACK_MAX then .stuck
      else if i.b - i.a - 1 < 0 then .stuck
      else if !(g.params.isEmpty || sigCheck g (i.b - i.a - 1)) then .stuck
      else match s.rd s.rbase (i.a + 1), s.fill (i.a + 2) (i.b - i.a - 1).toNat (g.left (i.b - i.a - 1).toNat) with
        | some self, some s => match s.reads s.rbase g.params.length (i.a + 2) with
          | none => .stuck
          | some args =>
            let cur := s.rbase + s.fsize s.f + 2
            match s.wr cur (-2) (.fn s.f) with
            | none => .stuck
            | some s => match s.wr cur (-1) (.imm (BitVec.ofNat 64 s.pos)) with
              | none => .stuck
              | some s => match (State.enter { s with f := g, pos := 0, cur := cur } self up args) with
                | none => .stuck
                | some s => .run s
        | _, _ => .stuck
    | _ => .stuck
  | _ => .stuck

/-- vm.c:884-905: RETURN. -/
def State.ret (s : State) (i : Ins) : Res :=
  if s.cur ≠ 0 then
    match s.rd s.rbase i.a, s.rd s.cur (-2), s.rd s.cur (-1) with
    | some val, some (.fn f), some (.imm p) =>
      let pos := (p.setWidth 32).toNat
      let op := f.code pos
      let reg : Int := (s.cur : Int) - (s.fsize f + 2)
      let cur : Int := reg - (f.localsize + f.upvalsize + 1)
      if 0 ≤ cur then
        match State.wr { s with f := f, pos := pos, cur := cur.toNat } reg.toNat op.a val with
        | none => .stuck
        | some s => .run { s with pos := pos + 1 }
      else .stuck
    | _, _, _ => .stuck
  else match s.rd s.rbase i.a with
    | none => .stuck
    | some v => match s.wr s.rbase 0 v with
      | none => .stuck
      | some s => .done v s

/-- vm.c:660-947: one turn of the loop; leaving the loop at the end of the code returns `reg[0]` (vm.c:948-950). -/
def State.step (s : State) : Res :=
  if s.pos < s.f.len then
    let i := s.f.code s.pos
    match i.op with
    | .move => match s.rd s.rbase i.b with | some v => s.setReg i.a v | none => .stuck
    | .loadk => match (if 0 ≤ i.b then s.f.values[i.b.toNat]? else none) with
      | some w => s.setReg i.a (.imm w)
      | none => .stuck
    | .loadpn => s.setReg i.a (.imm (BitVec.ofInt 64 i.b))
    | .self => match s.rd s.rbase (-1) with | some v => s.setReg i.a v | none => .stuck
    | .getlocal => match s.rd s.lbase i.b with
      | some v => match s.isRef v with
        | some n => match s.deref n with | some v => s.setReg i.a v | none => .stuck
        | none => s.setReg i.a v
      | none => .stuck
    | .setlocal => match s.rd s.lbase i.b, s.rd s.rbase i.a with
      | some v, some x => match s.isRef v with
        | some n => .run { s.setRef n x with pos := s.pos + 1 }
        | none => match s.wr s.lbase i.b x with
          | some s => .run { s with pos := s.pos + 1 }
          | none => .stuck
      | _, _ => .stuck
    | .getupval => match s.rd s.cur i.b with
      | some v => match s.isRef v with
        | some n => match s.deref n with | some v => s.setReg i.a v | none => .stuck
        | none => .stuck
      | none => .stuck
    | .setupval => match s.rd s.cur i.b, s.rd s.rbase i.a with
      | some v, some x => match s.isRef v with
        | some n => .run { s.setRef n x with pos := s.pos + 1 }
        | none => .stuck
      | _, _ => .stuck
    | .add => s.math .add true i
    | .sub => s.math .sub true i
    | .mult => s.math .mul true i
    | .div => s.math .div false i
    | .rem => s.math .rem false i
    | .bitl => s.math .shl false i
    | .bitr => s.math .shr false i
    | .not => match s.rd s.rbase i.a with | some v => s.setReg i.a (.imm (pnBool (!vtest v))) | none => .stuck
    | .test => match s.rd s.rbase i.a with | some v => s.setReg i.a (.imm (pnBool (vtest v))) | none => .stuck
    | .cmp => match s.rd s.rbase i.a, s.rd s.rbase i.b with
      | some (.imm x), some (.imm y) => s.setReg i.a (.imm (vmCmpOp x y))
      | _, _ => .stuck
    | .eq => s.veq true i
    | .neq => s.veq false i
    | .lt => s.ncmp .lt i
    | .lte => s.ncmp .le i
    | .gt => s.ncmp .gt i
    | .gte => s.ncmp .ge i
    | .bitn => match s.rd s.rbase i.b with
      | some (.imm x) => if isInt x then s.setReg i.a (.imm (numBitn x)) else .stuck
      | _ => .stuck
    | .jmp => .run { s with pos := ((s.pos : Int) + i.a + 1).toNat }
    | .testjmp => match s.rd s.rbase i.a with
      | some v => .run { s with pos := if vtest v then ((s.pos : Int) + i.b + 1).toNat else s.pos + 1 }
      | none => .stuck
    | .notjmp => match s.rd s.rbase i.a with
      | some v => .run { s with pos := if !vtest v then ((s.pos : Int) + i.b + 1).toNat else s.pos + 1 }
      | none => .stuck
    | .call => s.call i
    | .ret => s.ret i
    | .proto => match (if 0 ≤ i.b then s.f.protos[i.b.toNat]? else none) with
      | some g => match s.capture g.upvalsize [] with
        | some (s, up) => State.setReg { s with heap := s.heap ++ [.clo g up] } i.a (.obj s.heap.length)
        | none => .stuck
      | none => .stuck
    | .other => .stuck
  else match s.rd s.rbase 0 with
    | some v => .done v s
    | none => .stuck

/-- At most `n` turns of the loop; `none` = still running. -/
def State.steps : (n : Nat) → State → Option Res
  | 0, _ => none
  | n+1, s => match s.step with
    | .run s => State.steps n s
    | r => some r

/-- vm.c:597-659 `potion_vm` of a function without arguments and upvalues: the stack is zeroed. No call has
left out arguments before. -/
def start (f : Proto) (self : Val) (heap : List Obj) : Option State :=
  State.enter { f := f, pos := 0, cur := 0, stack := fun _ => .imm PN_NIL, heap := heap, grow := fun _ => 0 } self [] []

end Potion.Vm
