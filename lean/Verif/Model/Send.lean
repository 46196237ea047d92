import Verif.Model.CompileAll
/-!
The interpreter's loop (/repo/core/vm.c 596-951) over objects of any kind: registers, locals, constants, jumps and the order of the steps are modelled; what the
object model does (method lookup, running a method, arithmetic, lists, fields; modelled elsewhere) is a parameter, `World`. The code run is what the whole
compiler (Model/CompileAll.lean) emits. Functions written in the program (`PROTO`), classes, named arguments and upvalues are left out: their
instructions are `bad`.
-/
namespace Potion.Send
open Potion Potion.Peg Potion.CompileAll

/-- vm.c:804-866: the three kinds of values `CALL` tells apart: `PN_TCLOSURE`, `PN_TVTABLE`, others. -/
inductive Callee | closure | cls | other
  deriving DecidableEq

/-- The functions the loop calls. `V` are values, `S` is everything in memory but the registers and locals, `E` the ways of not coming back to the next
instruction: an error value returned from the function, the end of the process, an endless call. -/
structure World (V S E : Type) where
  /-- An element of `f->values`; the immediate value of a word is that of the constant. -/
  const : Tree → V
  /-- `PN_TEST` -/
  truth : V → Bool
  /-- `PN_BOOL` -/
  bool : Bool → V
  kind : V → S → Callee
  /-- objmodel.c:403-421 `potion_bind`: the receiver, the message. -/
  bind : V → V → S → Except E (V × S)
  /-- objmodel.c:423-428 `potion_message` -/
  message : V → V → S → Except E (V × S)
  /-- `potion_object_new` of a class; its constructor. -/
  new : V → S → Except E (V × S)
  ctor : V → S → V
  /-- objmodel.c:229-233 `potion_obj_get_call` -/
  callOf : V → S → V
  /-- vm.c:810-850: check and complete the arguments, run the closure: closure, self, arguments. -/
  enter : V → V → List V → S → Except E (V × S)
  /-- What that leaves in the registers after the last argument. -/
  spill : V → V → List V → S → Nat → V
  /-- `potion_call` -/
  apply : V → V → List V → S → Except E (V × S)
  /-- vm.c:749-790: the operators. -/
  op : Op → V → V → S → Except E (V × S)
  bitn : V → S → Except E (V × S)
  /-- `PN_TUP0`, `PN_PUSH`, `potion_table_set` -/
  tuple : S → Except E (V × S)
  push : V → V → S → Except E (V × S)
  put : V → V → V → S → Except E S
  /-- `potion_obj_get`, `potion_obj_set`, `potion_define_global`, `potion_def_method` -/
  get : V → V → S → Except E (V × S)
  set : V → V → V → S → Except E S
  global : V → V → S → Except E S
  defMethod : V → V → V → S → Except E (V × S)
  /-- vm.c:727-736: an element of a tuple (the tuple, the index), `potion_table_at`. -/
  tupleAt : V → V → S → Except E (V × S)
  tableAt : V → V → S → Except E (V × S)
  /-- lick.c:12-18 `potion_lick`: name, inner, attributes. -/
  lick : V → V → V → S → Except E (V × S)
  /-- objmodel.c:239-243 `potion_obj_get_callset` -/
  callset : V → S → V

/-- vm.c:596-650: position, registers (`reg`), locals, memory. -/
structure St (V S : Type) where
  pos : Nat
  reg : Nat → V
  loc : Nat → V
  mem : S

/-- After a step: go on, returned, left another way, or an instruction that is not modelled (or a position that is none). -/
inductive Out (V S E : Type)
  | go (s : St V S)
  | done (v : V) (m : S)
  | stop (e : E)
  | bad

variable {V S E : Type}

/-- `reg[i] = v` -/
def upd (r : Nat → V) (i : Nat) (v : V) : Nat → V := fun j => if j = i then v else r j

/-- The registers `i`, `i+1`, … (`n` of them). -/
def block (r : Nat → V) : (i n : Nat) → List V
  | _, 0 => []
  | i, n+1 => r i :: block r (i + 1) n

def St.next (s : St V S) : St V S := { s with pos := s.pos + 1 }
/-- Store a result in register `a`, go on. -/
def St.res (s : St V S) (a : Nat) (x : Except E (V × S)) : Out V S E :=
  match x with
  | .error e => .stop e
  | .ok (v, m) => .go { s with pos := s.pos + 1, reg := upd s.reg a v, mem := m }

/-- vm.c:803-866 `OP_CALL`: R[a](R[a+1], …, R[b]). -/
def call (W : World V S E) (a b : Nat) (s : St V S) : Out V S E :=
  match W.kind (s.reg a) s.mem with
  | .other =>
    let s1 := { s with reg := upd s.reg (a + 1) (s.reg a) }
    let f := W.callOf (s.reg a) s.mem
    match W.kind f s.mem with
    | .closure => s1.res a (W.apply f (s.reg a) (block s1.reg (a + 2) (b - a - 1)) s.mem)
    | _ => s1.res a (.ok (f, s.mem))
  | .closure => enter W (s.reg a) a b s
  | .cls =>
    match W.new (s.reg a) s.mem with
    | .error e => .stop e
    | .ok (o, m) => enter W (W.ctor (s.reg a) m) a b { s with reg := upd s.reg (a + 1) o, mem := m }
where
  /-- vm.c:808-850: the closure `f` with the registers after `a`. -/
  enter (W : World V S E) (f : V) (a b : Nat) (s : St V S) : Out V S E :=
    let args := block s.reg (a + 2) (b - a - 1)
    let s1 := { s with reg := fun j => if b < j then W.spill f (s.reg (a + 1)) args s.mem j else s.reg j }
    s1.res a (W.enter f (s.reg (a + 1)) args s.mem)

/-- vm.c:661-951: one instruction of `f`, with `me` as self (`reg[-1]`). -/
def step (W : World V S E) (me : V) (f : Fn) (s : St V S) : Out V S E :=
  if s.pos < f.len then
    let i := f.code s.pos
    let a := i.a.toNat
    let b := i.b.toNat
    match i.op with
    | .move => s.res a (.ok (s.reg b, s.mem))
    | .loadk => match f.values[b]? with
      | some v => s.res a (.ok (W.const v, s.mem))
      | none => .bad
    | .loadpn => s.res a (.ok (W.const (.imm (BitVec.ofInt 64 i.b)), s.mem))
    | .self => s.res a (.ok (me, s.mem))
    | .getlocal => s.res a (.ok (s.loc b, s.mem))
    | .setlocal => .go { s with pos := s.pos + 1, loc := upd s.loc b (s.reg a) }
    | .newtuple => s.res a (W.tuple s.mem)
    | .settuple => s.res a (W.push (s.reg a) (s.reg b) s.mem)
    | .settable => match W.put (s.reg a) (s.reg (a + 1)) (s.reg b) s.mem with
      | .error e => .stop e
      | .ok m => .go { s with pos := s.pos + 1, mem := m }
    | .getpath => s.res a (W.get (s.reg a) (s.reg b) s.mem)
    | .setpath => match W.set (s.reg a) (s.reg (a + 1)) (s.reg b) s.mem with
      | .error e => .stop e
      | .ok m => .go { s with pos := s.pos + 1, mem := m }
    | .global => match W.global (s.reg a) (s.reg b) s.mem with
      | .error e => .stop e
      | .ok m => .go { s with pos := s.pos + 1, reg := upd s.reg a (s.reg b), mem := m }
    | .def => s.res a (W.defMethod (s.reg a) (s.reg (a + 1)) (s.reg b) s.mem)
    | .not => s.res a (.ok (W.bool (!W.truth (s.reg a)), s.mem))
    | .bitn => s.res a (W.bitn (s.reg b) s.mem)
    | .add | .sub | .mult | .div | .rem | .pow | .cmp | .eq | .neq | .lt | .lte | .gt | .gte | .bitl | .bitr =>
      s.res a (W.op i.op (s.reg a) (s.reg b) s.mem)
    | .bind => s.res a (W.bind (s.reg b) (s.reg a) s.mem)
    | .msg => s.res a (W.message (s.reg b) (s.reg a) s.mem)
    | .test => s.res a (.ok (W.bool (W.truth (s.reg a)), s.mem))
    | .jmp => .go { s with pos := (s.pos + 1 + i.a).toNat }
    | .testjmp => .go { s with pos := if W.truth (s.reg a) then (s.pos + 1 + i.b).toNat else s.pos + 1 }
    | .notjmp => .go { s with pos := if W.truth (s.reg a) then s.pos + 1 else (s.pos + 1 + i.b).toNat }
    | .gettuple => s.res a (W.tupleAt (s.reg a) (if 1024 ≤ b then s.reg (b - 1024) else W.const (.imm (pnNum i.b))) s.mem)
    | .gettable => s.res a (W.tableAt (s.reg a) (s.reg b) s.mem)
    | .newlick => s.res a (W.lick (s.reg a) (if a < b then s.reg (a + 1) else W.const .nil) (if a + 1 < b then s.reg b else W.const .nil) s.mem)
    | .callset => s.res a (.ok (W.callset (s.reg b) s.mem, s.mem))
    | .call => call W a b s
    | .ret => .done (s.reg a) s.mem
    | _ => .bad
  else .bad

/-- `n` instructions. -/
def run (W : World V S E) (me : V) (f : Fn) : Nat → St V S → Out V S E
  | 0, s => .go s
  | n+1, s => match step W me f s with
    | .go s => run W me f n s
    | o => o

end Potion.Send
