import Verif.Model.Compile
import Verif.Model.Peg
/-!
Model of the whole bytecode compiler (/repo/core/compile.c 184-1077): `potion_source_asmb` for every kind of node,
`potion_arg_asmb`, `potion_sig_compile`, `potion_source_compile`, on the trees the parser builds (`Peg.Tree`).
`none` is a syntax error (`potion_syntax_error` ends the process, internal.c:297-307) or a step the C standard does not
define (a field of something that is not a node is read, an element outside a tuple, more than 1024 `break`s in a loop).
Simplifications: no DEBUG instructions (`EXEC_DEBUG` off); a number, a symbol or a string is found again in the tables of a
function by its value, a double or a node never is (the code compares addresses; strings are shared, string.c); the code of
`AST_VALUE` with arguments that is no index (compile.c:409-421; the parser builds no such node) is left out. `over` is not in
the code: it records that an 8-bit register number has wrapped.
-/
namespace Potion.CompileAll
open Potion Potion.Vm Potion.Peg
open Potion.Compile (bytesOf MAX_JUMPS)

/-- opcodes.h:9-60 -/
inductive Op
  | none | move | loadk | loadpn | self | newtuple | gettuple | settuple | getlocal | setlocal | getupval | setupval
  | global | gettable | settable | newlick | getpath | setpath | add | sub | mult | div | rem | pow | not | cmp | eq | neq
  | lt | lte | gt | gte | bitn | bitl | bitr | def | bind | msg | jmp | test | testjmp | notjmp | named | call | callset
  | tailcall | ret | proto | class | debug
  deriving DecidableEq, Repr

/-- opcodes.h:70-74 -/
structure Ins where
  op : Op
  a : Int
  b : Int
  deriving DecidableEq, Repr

/-- potion.h:454-471 `struct PNProto`. `native`: `jit` is set when compiled (extern). -/
structure Fn where
  sig : List Tree
  stack : Nat
  paths : List Nat
  locals : List Tree
  upvals : List Tree
  values : List Tree
  protos : List Fn
  code : Nat → Ins
  len : Nat
  native : Bool
  over : Bool

/-- The function being compiled, with the break and continue jumps of the loop around (compile.c:259-265); `outer` are the
locals and upvalues of the functions around it (reached through `f->source`). -/
structure CSt where
  code : Nat → Ins
  len : Nat
  stack : Nat
  paths : List Nat
  locals : List Tree
  upvals : List Tree
  values : List Tree
  protos : List Fn
  loop : Option (List Nat × List Nat)
  outer : List (List Tree × List Tree)
  over : Bool

/-- compile.c:14-20, asm.c:44-55: append an instruction. -/
def CSt.asm (st : CSt) (op : Op) (a b : Int) : CSt :=
  { st with code := fun k => if k = st.len then ⟨op, trunc12 a, trunc12 b⟩ else st.code k, len := st.len + 1 }
/-- `PN_OP_AT(f->asmb, i).b = d` / `.a = d`. -/
def CSt.patchB (st : CSt) (i : Nat) (d : Int) : CSt :=
  { st with code := fun k => if k = i then { st.code i with b := trunc12 d } else st.code k }
def CSt.patchA (st : CSt) (i : Nat) (d : Int) : CSt :=
  { st with code := fun k => if k = i then { st.code i with a := trunc12 d } else st.code k }
/-- compile.c:729-736 -/
def CSt.patchAll (st : CSt) (target : Int) : List Nat → CSt
  | [] => st
  | i :: is => CSt.patchAll (st.patchA i (target - i - 1)) target is
/-- compile.c:184-186 `PN_REG`. -/
def CSt.regs (st : CSt) (reg : Nat) : CSt := if reg ≥ st.stack then { st with stack := reg + 1 } else st
/-- A register number `n` is stored in a `u8`: its value is `n % 256`. -/
def CSt.wide (st : CSt) (n : Nat) : CSt := { st with over := st.over || decide (256 ≤ n) }

/-- Two words of the tables are equal. -/
def same : Tree → Tree → Bool
  | .imm a, .imm b => a == b
  | .str a, .str b => a == b
  | _, _ => false
/-- table.c:336-342 `PN_GET`. -/
def find : List Tree → Tree → Option Nat
  | [], _ => none
  | x :: l, v => if same x v then some 0 else (find l v).map (· + 1)
/-- table.c:346-353 `PN_PUT`. -/
def put (l : List Tree) (v : Tree) : List Tree × Nat :=
  match find l v with
  | some i => (l, i)
  | none => (l ++ [v], l.length)
/-- The value `v` in the table of constants. -/
def CSt.const (st : CSt) (v : Tree) : CSt × Nat := ({ st with values := (put st.values v).1 }, (put st.values v).2)
/-- The local `v`, which is added if it is new. -/
def CSt.locl (st : CSt) (v : Tree) : CSt × Nat := ({ st with locals := (put st.locals v).1 }, (put st.locals v).2)
/-- A path (compile.c:481, 853). -/
def CSt.path (st : CSt) (n : Nat) : CSt := { st with paths := if n ∈ st.paths then st.paths else st.paths ++ [n] }

/-- compile.c:219-235 -/
def pushUp (x : Tree) : List (List Tree × List Tree) → Option (List (List Tree × List Tree))
  | [] => none
  | (ls, us) :: r => match find ls x with
    | some _ => some ((ls, us) :: r)
    | none => match pushUp x r with
      | none => none
      | some r => some ((ls, us ++ [x]) :: r)
/-- compile.c:212-239 `PN_UPVAL`. -/
def CSt.upval (st : CSt) (x : Tree) : CSt × Option Nat :=
  match find st.locals x with
  | some _ => (st, none)
  | none => match find st.upvals x with
    | some n => (st, some n)
    | none => match pushUp x st.outer with
      | none => (st, none)
      | some out => ({ st with upvals := st.upvals ++ [x], outer := out }, some st.upvals.length)
/-- compile.c:363-373, 454-461, 535-541: an upvalue (`true`) or a local, added if there is neither. -/
def CSt.var (st : CSt) (x : Tree) : CSt × Bool × Nat :=
  match st.upval x with
  | (st, some n) => (st, true, n)
  | (st, none) => ((st.locl x).1, false, (st.locl x).2)
/-- compile.c:761-772: the same, nothing is added. -/
def CSt.look (st : CSt) (x : Tree) : CSt × Option (Bool × Nat) :=
  match st.upval x with
  | (st, some n) => (st, some (true, n))
  | (st, none) => (st, (find st.locals x).map fun n => (false, n))
def getOp (up : Bool) : Op := if up then .getupval else .getlocal
def setOp (up : Bool) : Op := if up then .setupval else .setlocal

/-- `PN_NIL`, an absent child. -/
def isNil : Tree → Bool
  | .imm w => w == PN_NIL
  | _ => false

/-- `potion_source_asmb(P, f, loop, count, t, reg)` of the children. -/
abbrev Rec := Tree → (count reg : Nat) → CSt → Option CSt

/-- `PN_TUPLE_EACH`. -/
def each (g : Nat → Tree → CSt → Option CSt) : Nat → List Tree → CSt → Option CSt
  | _, [], st => some st
  | i, v :: l, st => match g i v st with
    | none => none
    | some st => each g (i + 1) l st

/-! ### Signatures -/

/-- Signature and locals so far. -/
abbrev Sg := List Tree × List Tree

/-- compile.c:918-926 `SIG_EXPR_MSG`. -/
def sigName (e : Tree) (s : Sg) : Option Sg :=
  match e with
  | .node .expr (.tup (.node .msg x _ _ :: _)) _ _ => some (s.1 ++ [x], (put s.2 x).1)
  | .node .expr (.tup (.node .. :: _)) _ _ => some s
  | .node .expr _ _ _ => none
  | .node .. => some s
  | _ => none
/-- A character as a number. -/
def charNum (c : Nat) : Tree := .imm (pnNum c)
/-- compile.c:988, 997, 1006: the first character of a name. -/
def firstChar : Tree → Option Tree
  | .str (c :: _) => some (charNum c.toNat)
  | .str [] => some (charNum 0)
  | _ => none
/-- compile.c:994-999, 1004-1009: the type an expression of one message gives. -/
def sigType (e : Tree) (s : Sg) : Option Sg :=
  match e with
  | .node .expr (.tup (.node .msg x _ _ :: _)) _ _ => (firstChar x).map fun c => (s.1 ++ [c], s.2)
  | .node .expr (.tup (.node .. :: _)) _ _ => some s
  | .node .expr _ _ _ => none
  | .node .. => some s
  | _ => none
/-- compile.c:983-1015: what follows the `=`. -/
def sigRight (rhs : Tree) (s : Sg) : Option Sg :=
  match rhs with
  | .node .expr (.tup [_]) _ _ => sigType rhs s
  | .node .expr (.tup _) _ _ => none
  | .node .expr _ _ _ => none
  | .node .assign (.node .pipe l r _) rhs' _ => do
    let s ← sigType l s
    let s ← sigName r (s.1 ++ [charNum 124], s.2)
    sigType rhs' s
  | .node .value v _ _ => some (s.1 ++ [charNum 58, v], s.2)
  | _ => none
/-- compile.c:952-1018: one element of the list. -/
def sigItem (e : Tree) (s : Sg) : Option Sg :=
  match e with
  | .node .value _ _ _ => none
  | .node .pipe l r _ => do
    let s ← sigName l s
    sigName r (s.1 ++ [charNum 124], s.2)
  | .node .assign l r _ =>
    match l with
    | .node .expr (.tup [_]) _ _ => do
      let s ← sigName l s
      sigRight r s
    | .node .pipe x y _ => do
      let s ← sigName x s
      sigRight y (s.1 ++ [charNum 124], s.2)
    | _ => none
  | _ => sigName e s
/-- compile.c:943-1023 `potion_sig_compile`; 1067: no signature. -/
def sigCompile (src : Tree) : Option Sg :=
  if isNil src then some ([], []) else
  match src with
  | .node .list l _ _ =>
    if isNil l then some ([], []) else
    match l with
    | .tup vs => vs.foldlM (fun s v => sigItem v s) ([], [])
    | _ => none
  | .node .. => some ([], [])
  | _ => none

/-! ### Functions and arguments -/

/-- compile.c:1052-1066: an empty function with the given locals. -/
def CSt.open (locals : List Tree) (outer : List (List Tree × List Tree)) : CSt :=
  { code := fun _ => ⟨.none, 0, 0⟩, len := 0, stack := 1, paths := [], locals := locals, upvals := [], values := [],
    protos := [], loop := none, outer := outer, over := false }
/-- compile.c:1071-1076 -/
def CSt.close (st : CSt) (sig : List Tree) : Fn :=
  let st := st.asm .ret 0 0
  { sig := sig, stack := st.stack, paths := st.paths, locals := st.locals, upvals := st.upvals, values := st.values,
    protos := st.protos, code := st.code, len := st.len, native := false, over := st.over }
/-- compile.c:1043-1077 `potion_source_compile`: the function and the functions around it. -/
def compileFn (rec : Rec) (t sig : Tree) (outer : List (List Tree × List Tree)) : Option (Fn × List (List Tree × List Tree)) :=
  match t with
  | .node .code _ _ _ | .node .block _ _ _ => do
    let (sg, locals) ← sigCompile sig
    let st ← rec t 0 0 (CSt.open locals outer)
    return (st.close sg, st.outer)
  | _ => none
/-- compile.c:203-210: where the new closure takes its upvalues from. (`PN_NONE` as an operand is -1.) -/
def CSt.captures (st : CSt) (reg : Nat) : List Tree → CSt
  | [] => st
  | x :: xs =>
    CSt.captures (match find st.upvals x with
      | some n => st.asm .getupval reg n
      | none => match find st.locals x with
        | some n => st.asm .getlocal reg n
        | none => st.asm .getlocal reg (-1)) reg xs
/-- A function is new: it is appended. -/
def CSt.proto (st : CSt) (g : Fn) (reg : Nat) : CSt :=
  CSt.captures (CSt.asm { st with protos := st.protos ++ [g] } .proto reg st.protos.length) reg g.upvals
/-- compile.c:198-211 `PN_BLOCK`. -/
def block (rec : Rec) (reg : Nat) (blk sig : Tree) (st : CSt) : Option CSt := do
  let (g, out) ← compileFn rec blk sig ((st.locals, st.upvals) :: st.outer)
  match out with
  | [] => none
  | (_, us) :: out => return CSt.proto { st with upvals := us, outer := out } g reg

/-- compile.c:187-197 `PN_ARG`. -/
def pnArg (rec : Rec) (a : Tree) (reg : Nat) (st : CSt) : Option CSt :=
  match a with
  | .node .expr (.tup (.node .list l _ _ :: _)) _ _ =>
    if isNil l then some st else
    match l with
    | .tup vs => each (fun _ v => rec v 0 reg) 0 vs st
    | _ => none
  | .node .expr (.tup (.node .. :: _)) _ _ => rec a 0 reg st
  | .node .expr _ _ _ => none
  | .node .. => rec a 0 reg st
  | _ => none

/-- compile.c:281-303, 892-905: the left side of a named argument or table entry. -/
def lhsOf : Tree → Option Tree
  | .node .expr (.tup [x]) _ _ => some x
  | .node .expr (.tup l) b c => some (.node .expr (.tup l) b c)
  | .node .expr _ _ _ => none
  | .node k a b c => some (.node k a b c)
  | _ => none
/-- compile.c:286-295: a constant into register `r`. -/
def CSt.load (st : CSt) (r : Nat) (v : Tree) : CSt :=
  match v with
  | .imm w => if Ops.immediate w then st.asm .loadpn r w.toInt else (st.const v).1.asm .loadk r (st.const v).2
  | _ => (st.const v).1.asm .loadk r (st.const v).2
/-- compile.c:278-306: one argument of a call; `reg` is its register, `freg` the one before the first, `n` the number of
arguments. -/
def argItem (rec : Rec) (freg n : Nat) (v : Tree) (reg : Nat) (st : CSt) : Option CSt :=
  match v with
  | .node .assign l r _ => do
    let sreg := (freg + n + 1) % 256
    let st := st.wide (freg + n + 1)
    let st ← rec r 0 ((sreg + 1) % 256) (st.wide (sreg + 1))
    let x ← lhsOf l
    let st ← (match l, x with
      | .node .expr (.tup [_]) _ _, .node .msg y _ _ => some (st.load sreg y)
      | .node .expr (.tup [_]) _ _, .node .value y _ _ => some (st.load sreg y)
      | _, _ => rec x 0 sreg st)
    return CSt.regs (st.asm .named (freg - 1) (sreg + 1)) (sreg + 1)
  | .node .. => rec v 0 reg st
  | _ => none
/-- compile.c:276-308: the arguments of a call. -/
def argItems (rec : Rec) (freg n : Nat) : List Tree → Nat → CSt → Option (CSt × Nat)
  | [], reg, st => some (st, reg)
  | v :: l, reg, st => do
    let st ← argItem rec freg n v ((reg + 1) % 256) (st.wide (reg + 1))
    argItems rec freg n l ((reg + 1) % 256) st
/-- compile.c:269-317 `potion_arg_asmb`. -/
def argAsmb (rec : Rec) (args : Tree) (reg : Nat) (inc : Bool) (st : CSt) : Option (CSt × Nat) :=
  match args with
  | .node .list l _ _ =>
    if isNil l then some (st, reg) else
    match l with
    | .tup vs =>
      if inc then argItems rec reg vs.length vs reg st
      else (each (fun _ v => rec v 0 reg) 0 vs st).map fun st => (st, reg)
    | _ => none
  | .node .. =>
    if inc then (rec args 0 ((reg + 1) % 256) (st.wide (reg + 1))).map fun st => (st, (reg + 1) % 256)
    else (rec args 0 reg st).map fun st => (st, reg)
  | .imm w =>
    if w = PN_NIL then
      if inc then some ((st.wide (reg + 1)).asm .loadpn ((reg + 1) % 256 : Nat) 0, (reg + 1) % 256)
      else some (st.asm .loadpn reg 0, reg)
    else none
  | _ => none

/-! ### The kinds of nodes -/

/-- compile.c:356-402: `tpl[key]`. -/
def index (tpl items : Tree) (reg : Nat) (st : CSt) : Option CSt :=
  let (st, up, num) := st.var tpl
  let st := st.asm (getOp up) reg num
  match items with
  | .node _ (.tup (.node _ key _ _ :: _)) _ _ =>
    match key with
    | .str s =>
      let (st, n) := st.locl (.str s)
      some (CSt.regs (CSt.asm (st.asm .getlocal (reg + 1) n) .gettuple reg (reg + 1 + 1024)) (reg + 1))
    | .node .value k _ _ =>
      match k with
      | .imm w =>
        if isInt w then
          if pnInt w ≥ 1024 ∨ pnInt w < 0 then
            let (st, n) := st.const k
            some (CSt.asm (CSt.regs (st.asm .loadk (reg + 1) n) (reg + 1)) .gettuple reg (reg + 1))
          else some (st.asm .gettuple reg (pnInt w))
        else
          let (st, n) := st.const k
          some (CSt.regs (CSt.asm (st.asm .loadk (reg + 1) n) .gettable reg (reg + 1)) (reg + 1))
      | .str _ | .dbl _ | .node .. =>
        let (st, n) := st.const k
        some (CSt.regs (CSt.asm (st.asm .loadk (reg + 1) n) .gettable reg (reg + 1)) (reg + 1))
      | _ => none
    | _ => none
  | _ => none

/-- compile.c:352-424 `AST_VALUE`. `PN_PART(a)` of a string is its length, and `AST_LICK` is 33: the code takes a string of
33 bytes for an index and follows bytes 4 to 11 of its text as an address (potion.h:337-341, 433-436). -/
def value (a args : Tree) (reg : Nat) (st : CSt) : Option CSt :=
  match a with
  | .node .lick (.node .msg tpl _ _) items _ => index tpl items reg st
  | .node .lick _ _ _ => none
  | .imm _ | .dbl _ | .node .. => if isNil args then some (st.load reg a) else none
  | .str s => if isNil args ∧ s.length ≠ 33 then some (st.load reg a) else none
  | _ => none

/-- What is assigned to: the instruction that reads or defines it. -/
inductive Target | upval | local | global | def | path
  deriving DecidableEq, Repr
def Target.op : Target → Op
  | .upval => .getupval | .local => .getlocal | .global => .global | .def => .def | .path => .getpath

/-- compile.c:451: `isupper` of the first byte. -/
def isUpper : List (BitVec 8) → Bool
  | c :: _ => decide (65 ≤ c.toNat) && decide (c.toNat ≤ 90)
  | [] => false

/-- compile.c:446-490: the target, its operand and the register of the value. -/
def target (k : Kind) (x : Tree) (c reg : Nat) (st : CSt) : Option (CSt × Target × Nat × Nat) :=
  if k = .msg ∨ k = .query then
    match x with
    | .str s =>
      if isUpper s then
        let (st, n) := st.const x
        some ((st.asm .loadk reg n).wide (reg + 1), .global, (reg + 1) % 256, (reg + 1) % 256)
      else if c = 0 then
        let (st, up, n) := st.var x
        some (st, if up then .upval else .local, n, reg)
      else
        let (st, n) := st.const x
        some (((st.wide (reg + 1)).asm .loadk ((reg + 1) % 256 : Nat) n).wide (reg + 2), .def, (reg + 2) % 256, (reg + 2) % 256)
    | _ => none
  else if k = .path ∨ k = .pathq then
    let (st, n) := st.const x
    let st := if c = 0 then (st.path n).asm .self reg 0 else st
    some (((st.wide (reg + 1)).asm .loadk ((reg + 1) % 256 : Nat) n).wide (reg + 2), .path, (reg + 2) % 256, (reg + 2) % 256)
  else none

/-- compile.c:502-526: the store. -/
def store (k : Kind) (tg : Target) (reg breg num : Nat) (st : CSt) : CSt :=
  match tg with
  | .upval =>
    let st := if k = .query then (st.asm .getupval breg num).asm .testjmp breg 1 else st
    st.asm .setupval reg num
  | .local =>
    if k = .query then (st.asm .getlocal breg num).asm .testjmp breg 1 else st.asm .setlocal reg num
  | .path =>
    let st := if k = .pathq then (st.asm .getpath reg num).asm .testjmp reg 1 else st
    st.asm .setpath reg num
  | .global => st.asm .global reg num
  | .def => st.asm .def reg num

/-- compile.c:446-529: an assignment to the node `k x args`, with `c` nodes before it. -/
def assignTo (rec : Rec) (k : Kind) (x args rhs : Tree) (c reg : Nat) (st : CSt) : Option CSt := do
  let (st, tg, num, breg) ← target k x c reg st
  if isNil args then
    let st ← rec rhs 0 breg st
    return CSt.regs (store k tg reg breg num st) breg
  else
    let breg := (reg + 1) % 256
    let st := ((st.wide (reg + 1)).asm tg.op breg num).asm .callset reg breg
    let (st, breg) ← argAsmb rec args breg true st
    let st ← rec rhs 0 ((breg + 1) % 256) (st.wide (breg + 1))
    return CSt.regs (st.asm .call reg ((breg + 1) % 256 : Nat)) ((breg + 1) % 256)

/-- compile.c:426-530 `AST_ASSIGN`. -/
def assign (rec : Rec) (lhs rhs : Tree) (count reg : Nat) (st : CSt) : Option CSt :=
  match lhs with
  | .node .expr e _ _ =>
    match e with
    | .tup l => do
      let st ← each (fun i v => rec v i reg) 0 l.dropLast st
      match l.getLast? with
      | some (.node k x v _) => assignTo rec k x v rhs (l.length - 1) reg st
      | _ => none
    | _ => none
  | .node k x v _ => assignTo rec k x v rhs count reg st
  | _ => none

/-- compile.c:532-556 `AST_INC`. -/
def incr (x : Tree) (n : PN) (reg : Nat) (st : CSt) : CSt :=
  let (st, up, num) := st.var x
  let st := st.asm (getOp up) reg num
  let breg := if isInt n then (reg + 1) % 256 else reg
  let st := if isInt n then (st.wide (reg + 1)).asm .move breg reg else st
  let st := st.asm .loadpn (breg + 1) (n ||| 1#64).toInt
  let st := st.asm .add breg (breg + 1)
  let st := st.asm (setOp up) breg num
  st.regs (breg + 1)

/-- compile.c:563-579 -/
def binOp : Kind → Option Op
  | .cmp => some .cmp | .eq => some .eq | .neq => some .neq | .gte => some .gte | .gt => some .gt | .lt => some .lt
  | .lte => some .lte | .plus => some .add | .minus => some .sub | .times => some .mult | .div => some .div
  | .rem => some .rem | .pow => some .pow | .bitl => some .bitl | .bitr => some .bitr
  | _ => none

/-- compile.c:190-192: the expression `self` appended to the body of a class. -/
def selfExpr : Tree := .node .expr (.tup [.node .msg (.str (bytesOf "self")) .nil .nil]) .nil .nil

/-- objmodel.c:82-104 `potion_sig_arity`. (`t->set[i+1]` after a last `:` is read outside the tuple: no string there.) -/
def sigArity : List Tree → Int
  | [] => 0
  | v :: l => (match v with
    | .str _ => 1
    | .imm w => if w = pnNum 58 then (match l with | .str _ :: _ => -1 | _ => 0) else 0
    | _ => 0) + sigArity l
/-- `PN_IS_STR` -/
def isStr : Tree → Bool
  | .str _ => true
  | _ => false

/-- compile.c:672-695: the function of an external symbol. -/
def externFn (sig : List Tree) (reg : Nat) : Fn where
  sig := sig
  stack := 1
  paths := []
  locals := []
  upvals := []
  values := []
  protos := []
  code := fun _ => ⟨.ret, trunc12 reg, 0⟩
  len := 1
  native := true
  over := false

/-- compile.c:659-699: `extern`; `dl` tells which symbols `dlsym` finds. -/
def extern (dl : List (BitVec 8) → Bool) (v : Tree) (reg : Nat) (st : CSt) : Option CSt :=
  match v with
  | .tup (.node _ (.str name) _ _ :: rest) =>
    if dl name then
      match rest with
      | .tup sg :: _ =>
        if (sg.take (sigArity sg).toNat).all isStr then
          some (st.proto (externFn sg reg) reg)
        else none
      | _ => none
    else some (st.asm .loadpn reg 0)
  | _ => none

/-- compile.c:190-211, 640-657: the body of a class. -/
def classBody (rec : Rec) (v blk : Tree) (reg : Nat) (st : CSt) : Option CSt :=
  match blk with
  | .node .block (.tup l) b c =>
    (block rec ((reg + 1) % 256) (.node .block (.tup (l ++ [selfExpr])) b c) v (st.wide (reg + 1))).map fun st =>
      st.asm .class reg ((reg + 1) % 256 : Nat)
  | _ => if isNil blk then some (st.asm .class reg reg) else none

/-- compile.c:820-841: argument and block of a message; `breg` is the register of the receiver. -/
def msgArgs (rec : Rec) (v blk : Tree) (breg : Nat) (st : CSt) : Option (CSt × Nat) := do
  let (st, breg) ← (match v with
    | .node .value _ _ _ => argAsmb rec v breg true st
    | .node .list _ _ _ => if isNil blk then argAsmb rec v breg true st else some (st, breg)
    | .node .. => some (st, breg)
    | _ => if isNil v then some (st, breg) else none)
  match blk with
  | .node .proto s b _ => (block rec ((breg + 1) % 256) b s (st.wide (breg + 1))).map fun st => (st, (breg + 1) % 256)
  | .node .block _ _ _ => (block rec ((breg + 1) % 256) blk v (st.wide (breg + 1))).map fun st => (st, (breg + 1) % 256)
  | .node .. => some (st, breg)
  | _ => if isNil blk then (if isNil v then argAsmb rec v breg true st else some (st, breg)) else none

/-- compile.c:784-793: look the message up; `foo &bar` names another one. -/
def sendMsg (v blk : Tree) (reg oreg : Nat) (st : CSt) : CSt :=
  match blk with
  | .node .msg y _ _ => ((st.const y).1.asm .loadk reg (st.const y).2).asm .bind reg oreg
  | _ => st.asm (if isNil v && isNil blk then .bind else .msg) reg oreg

/-- compile.c:778-850: a message; `breg` is `reg`, or `reg + 1` (compile.c:704, 714). -/
def message (rec : Rec) (k : Kind) (x v blk : Tree) (count reg breg : Nat) (st : CSt) : Option CSt := do
  let oreg := (breg + 1) % 256
  let (st, n) := (st.wide (breg + 1)).const x
  let st := if count = 0 then st.asm .self oreg 0 else st.asm .move oreg reg
  let st := st.asm .loadk reg n
  let st := sendMsg v blk reg oreg st
  let jmp := st.len
  let st := if k = .query && !isNil v then st.asm .notjmp reg 0 else st
  let (st, breg) ← msgArgs rec v blk oreg st
  let st := if k = .msg then st.asm .call reg breg
    else if isNil v then st.asm .test reg breg
    else (st.asm .call reg breg).patchB jmp ((st.len : Int) + 1 - jmp - 1)
  return st.regs breg

/-- compile.c:851-869: a variable, or the value before it, called if it has arguments or a block. -/
def varCall (rec : Rec) (v blk : Tree) (reg breg : Nat) (st : CSt) : Option CSt :=
  if isNil v && isNil blk then some (st.regs breg) else do
  let (st, breg) ← argAsmb rec v ((breg + 1) % 256) true ((st.wide (breg + 1)).asm .self ((breg + 1) % 256 : Nat) 0)
  if isNil blk then return CSt.regs (st.asm .call reg breg) breg
  else
    let st ← block rec ((breg + 1) % 256) blk .nil (st.wide (breg + 1))
    return CSt.regs (st.asm .call reg ((breg + 1) % 256 : Nat)) ((breg + 1) % 256)

/-- compile.c:758-871: what is no keyword. -/
def plainMsg (rec : Rec) (k : Kind) (x v blk : Tree) (count reg breg : Nat) (st : CSt) : Option CSt :=
  if count = 0 ∧ k = .msg then
    match st.look x with
    | (st, some (up, n)) => varCall rec v blk reg breg (st.asm (getOp up) reg n)
    | (st, none) => if isNil x then varCall rec v blk reg breg st else message rec k x v blk count reg breg st
  else if isNil x then varCall rec v blk reg breg st
  else message rec k x v blk count reg breg st

/-- compile.c:606-618 `if`. -/
def ifMsg (rec : Rec) (v blk : Tree) (reg : Nat) (st : CSt) : Option CSt := do
  let breg := (reg + 1) % 256
  if isNil v then none
  let (st, _) ← argAsmb rec v breg false (st.wide (reg + 1))
  let jmp := st.len
  if isNil blk then none
  let st ← rec blk 0 reg (st.asm .notjmp breg 0)
  return CSt.regs (st.patchB jmp ((st.len : Int) - jmp - 1)) breg
/-- compile.c:619-632 `elsif`. -/
def elsifMsg (rec : Rec) (v blk : Tree) (reg : Nat) (st : CSt) : Option CSt := do
  let breg := (reg + 1) % 256
  let jmp1 := st.len
  if isNil v then none
  let (st, _) ← argAsmb rec v breg false ((st.wide (reg + 1)).asm .testjmp breg 0)
  let jmp2 := st.len
  if isNil blk then none
  let st ← rec blk 0 reg (st.asm .notjmp breg 0)
  let st := st.patchB jmp1 ((st.len : Int) - jmp1 - 1)
  return CSt.regs (st.patchB jmp2 ((st.len : Int) - jmp2 - 1)) breg
/-- compile.c:633-639 `else`. -/
def elseMsg (rec : Rec) (blk : Tree) (reg : Nat) (st : CSt) : Option CSt := do
  let breg := (reg + 1) % 256
  let jmp := st.len
  if isNil blk then none
  let st ← rec blk 0 reg ((st.wide (reg + 1)).asm .testjmp breg 0)
  return CSt.regs (st.patchB jmp ((st.len : Int) - jmp - 1)) breg
/-- compile.c:728-730: the jump out of a `while`, patched. -/
def CSt.exit (st : CSt) : Option Nat → CSt
  | some j => st.patchB j ((st.len : Int) - j - 1)
  | none => st
/-- compile.c:720-737: body and end of a loop starting at `jmp2`. -/
def loopBody (rec : Rec) (blk : Tree) (reg jmp2 : Nat) (jmp1 : Option Nat) (st : CSt) : Option CSt := do
  if isNil blk then none
  let outer := st.loop
  let st ← rec blk 0 reg { st with loop := some ([], []) }
  let st := st.asm .jmp ((jmp2 : Int) - st.len - 1) 0
  let st := st.exit jmp1
  let jumps := st.loop.getD ([], [])
  let st := st.patchAll st.len jumps.1
  let st := st.patchAll jmp2 jumps.2
  return { st with loop := outer }
/-- compile.c:700-736 `while`. -/
def whileMsg (rec : Rec) (v blk : Tree) (reg : Nat) (st : CSt) : Option CSt := do
  let breg := (reg + 1) % 256
  let jmp2 := st.len
  let (st, _) ← argAsmb rec v breg false (st.wide (reg + 1))
  let jmp1 := st.len
  let st ← loopBody rec blk reg jmp2 (some jmp1) (st.asm .notjmp breg 0)
  return st.regs breg
/-- compile.c:700-736 `loop`, a loop only without arguments and with a block. -/
def loopMsg (rec : Rec) (x v blk : Tree) (count reg : Nat) (st : CSt) : Option CSt :=
  if isNil v && !isNil blk then
    (loopBody rec blk reg st.len none (st.wide (reg + 1))).map fun st => st.regs ((reg + 1) % 256)
  else plainMsg rec .msg x v blk count reg ((reg + 1) % 256) (st.wide (reg + 1))
/-- compile.c:742-755 `break` (`b`) and `continue`. -/
def jumpMsg (b : Bool) (st : CSt) : Option CSt :=
  match st.loop with
  | none => none
  | some (bs, cs) =>
    if (if b then bs else cs).length < MAX_JUMPS then
      some { st.asm .jmp 0 0 with loop := some (if b then (bs ++ [st.len], cs) else (bs, cs ++ [st.len])) }
    else none

/-- compile.c:600-872 `AST_MSG`, `AST_QUERY`. -/
def msgNode (dl : List (BitVec 8) → Bool) (rec : Rec) (k : Kind) (x v blk : Tree) (count reg : Nat) (st : CSt) : Option CSt :=
  match k, x with
  | .msg, .str s =>
    if s = bytesOf "if" then ifMsg rec v blk reg st
    else if s = bytesOf "elsif" then elsifMsg rec v blk reg st
    else if s = bytesOf "else" then elseMsg rec blk reg st
    else if s = bytesOf "class" then
      (classBody rec v blk reg (if count = 0 then st.asm .self reg 0 else st)).map fun st => st.regs reg
    else if s = bytesOf "extern" then (extern dl v reg st).map fun st => st.regs reg
    else if s = bytesOf "while" then whileMsg rec v blk reg st
    else if s = bytesOf "loop" then loopMsg rec x v blk count reg st
    else if s = bytesOf "return" then do
      let (st, _) ← argAsmb rec v reg false st
      return CSt.regs (st.asm .ret reg 0) reg
    else if s = bytesOf "break" then (jumpMsg true st).map fun st => st.regs reg
    else if s = bytesOf "continue" then (jumpMsg false st).map fun st => st.regs reg
    else if s = bytesOf "self" then some (CSt.regs (st.asm .self reg 0) reg)
    else plainMsg rec k x v blk count reg reg st
  | _, _ => plainMsg rec k x v blk count reg reg st

/-- compile.c:849-864 `AST_PATH`, `AST_PATHQ`. -/
def pathNode (q : Bool) (x : Tree) (count reg : Nat) (st : CSt) : CSt :=
  let (st, n) := st.const x
  let st := if count = 0 then (st.path n).asm .self reg 0 else st
  let st := (st.asm .loadk (reg + 1) n).asm .getpath reg (reg + 1)
  let st := if q then st.asm .test reg reg else st
  st.regs (reg + 1)

/-- compile.c:866-880 `AST_LICK`. -/
def lickNode (rec : Rec) (x v t : Tree) (reg : Nat) (st : CSt) : Option CSt := do
  let (st, n) := st.const x
  let st := st.asm .loadk reg n
  let (st, breg) ← (if !isNil v then (rec v 0 ((reg + 1) % 256) (st.wide (reg + 1))).map fun st => (st, (reg + 1) % 256)
    else if !isNil t then some ((st.wide (reg + 1)).asm .loadpn ((reg + 1) % 256 : Nat) 0, (reg + 1) % 256)
    else some (st, reg))
  let (st, breg) ← (if !isNil t then (rec t 0 ((breg + 1) % 256) (st.wide (breg + 1))).map fun st => (st, (breg + 1) % 256)
    else some (st, breg))
  return CSt.regs (st.asm .newlick reg breg) breg

/-- compile.c:886-912: an element of a list or table. -/
def listItem (rec : Rec) (reg : Nat) (v : Tree) (st : CSt) : Option CSt :=
  match v with
  | .node .assign l r _ => do
    let x ← lhsOf l
    let st ← (match l, x with
      | .node .expr (.tup [_]) _ _, .node .msg y _ _ => some ((st.const y).1.asm .loadk (reg + 1) (st.const y).2)
      | _, _ => rec x 0 ((reg + 1) % 256) (st.wide (reg + 1)))
    let st ← rec r 0 ((reg + 2) % 256) (st.wide (reg + 2))
    return CSt.regs (st.asm .settable reg (reg + 2)) (reg + 2)
  | .node .. => do
    let st ← rec v 0 ((reg + 1) % 256) (st.wide (reg + 1))
    return CSt.regs (st.asm .settuple reg (reg + 1)) (reg + 1)
  | _ => none

/-- compile.c:320-915: the body of `potion_source_asmb`. -/
def node (dl : List (BitVec 8) → Bool) (rec : Rec) (k : Kind) (a b c : Tree) (count reg : Nat) (st : CSt) : Option CSt :=
  match k with
  | .code | .block =>                                              -- 326-335
    if isNil a then some st else
    match a with
    | .tup vs => each (fun _ v => rec v 0 reg) 0 vs st
    | _ => none
  | .expr =>                                                       -- 337-345
    if isNil a then some st else
    match a with
    | .tup vs => each (fun i v => rec v i reg) 0 vs st
    | _ => none
  | .proto => block rec reg b a st                                 -- 347-349
  | .value => value a b reg st
  | .assign => assign rec a b count reg st
  | .inc =>
    match a, b with
    | .node _ x _ _, .imm n => some (incr x n reg st)
    | _, _ => none
  | .not => do return (← pnArg rec a reg st).asm .not reg reg      -- 585-588
  | .wavy => do return (← pnArg rec a reg st).asm .bitn reg reg
  | .and | .or => do                                               -- 590-598
    let st ← pnArg rec a reg st
    let jmp := st.len
    let st ← pnArg rec b reg (st.asm (if k = .and then .notjmp else .testjmp) reg 0)
    return st.patchB jmp ((st.len : Int) - jmp - 1)
  | .msg | .query => msgNode dl rec k a b c count reg st
  | .path => some (pathNode false a count reg st)
  | .pathq => some (pathNode true a count reg st)
  | .lick => lickNode rec a b c reg st
  | .list =>                                                       -- 882-914
    if isNil a then some (st.asm .newtuple reg 0) else
    match a with
    | .tup vs => each (fun _ v => listItem rec reg v) 0 vs (st.asm .newtuple reg 0)
    | _ => none
  | .pipe | .caret | .amp => some st                               -- no case
  | .cmp | .eq | .neq | .gt | .gte | .lt | .lte | .plus | .minus | .times | .div | .rem | .pow | .bitl | .bitr =>   -- 558-583
    match binOp k with
    | none => none
    | some op => do
      let st ← pnArg rec a reg st
      let st ← pnArg rec b ((reg + 1) % 256) (st.wide (reg + 1))
      return st.asm op reg (reg + 1)

/-- compile.c:320-915 `potion_source_asmb`; `fuel` bounds the depth of the recursion. -/
def asmb (dl : List (BitVec 8) → Bool) : (fuel : Nat) → Rec
  | 0, _, _, _, _ => none
  | n + 1, .node k a b c, count, reg, st => node dl (asmb dl n) k a b c count reg (st.regs reg)
  | _ + 1, _, _, _, _ => none

/-- compile.c:1043-1077 `potion_source_compile(P, cl, self, PN_NIL, PN_NIL)` of a parsed text. -/
def compile (dl : List (BitVec 8) → Bool) (fuel : Nat) (t : Tree) : Option Fn :=
  (compileFn (asmb dl fuel) t .nil []).map (·.1)

end Potion.CompileAll
