import Verif.Model.Vm
import Verif.Model.Op
/-!
Model of the bytecode compiler `potion_source_asmb` (/repo/core/compile.c 184-243, 256-317, 320-930) for literals,
variables, assignment, operators, control flow, functions and calls of functions held in variables. Syntax trees of other
shapes are `none` (not modelled).
The instruction array is a function with a length; every operand passes through the 12-bit fields of `PN_OP`; registers
are 8-bit (`u8 reg`).
-/
namespace Potion.Compile
open Potion Potion.Vm

/-- Identifier text. -/
abbrev Name := List (BitVec 8)

/-- compile.c:451-452: a name starting with an ASCII capital denotes a global. -/
def isGlobal : Name → Bool
  | c :: _ => decide (65 ≤ c.toNat) && decide (c.toNat ≤ 90)
  | [] => false

/-- The bytes of an ASCII name. -/
def bytesOf (s : String) : Name := s.toList.map fun c => BitVec.ofNat 8 c.toNat

/-- compile.c:605-757, syntax.y:149, 270-274: names that are not variables. (`loop` without a block is a variable in the
code; it is left out of the model.) -/
def keywords : List Name :=
  ["if", "elsif", "else", "class", "extern", "while", "loop", "return", "break", "continue", "self",
   "nil", "true", "false", "and", "or", "not"].map bytesOf

/-- ast.h: binary operator nodes. -/
inductive BinOp | plus | minus | times | div | rem | bitl | bitr | cmp | eq | neq | lt | lte | gt | gte
  deriving DecidableEq, Repr

/-- compile.c:563-579 -/
def BinOp.opc : BinOp → Opc
  | .plus => .add | .minus => .sub | .times => .mult | .div => .div | .rem => .rem | .bitl => .bitl | .bitr => .bitr
  | .cmp => .cmp | .eq => .eq | .neq => .neq | .lt => .lt | .lte => .lte | .gt => .gt | .gte => .gte

/-- Syntax trees (ast.h, syntax.y), the modelled part. Statement lists are right-nested pairs. -/
inductive Src
  | skip                              -- an empty list
  | seq (a b : Src)                   -- AST_CODE / AST_BLOCK [a, b...]
  | chain (a b : Src)                 -- AST_EXPR [a, b...]: b is compiled with a higher `count`
  | value (v : PN)                    -- AST_VALUE of an immediate, no call
  | msg (x : Name)                    -- AST_MSG without arguments and block
  | paren (a : Src)                   -- AST_EXPR [AST_LIST a]
  | assign (x : Name) (e : Src)       -- AST_ASSIGN (AST_EXPR [AST_MSG x]) e
  | inc (x : Name) (n : PN)           -- AST_INC: n has its tag bit set for x++ / x--, cleared for ++x / --x
  | bin (op : BinOp) (a b : Src)
  | not (a : Src)
  | wavy (a : Src)
  | and (a b : Src)
  | or (a b : Src)
  | ifm (c body : Src)                -- AST_MSG "if" (list c) (block body)
  | elsifm (c body : Src)
  | elsem (body : Src)
  | whilem (c body : Src)
  | loopm (body : Src)
  | retv (a : Src)                    -- AST_MSG "return" (list a)
  | ret0                              -- AST_MSG "return"
  | brk
  | cont
  | self
  | fn (ps : List Name) (body : Src)  -- AST_PROTO: parameters without types and defaults, AST_BLOCK body
  | call (x : Name) (args : Src)      -- AST_MSG x with an argument list, no block
  | anil                              -- end of an argument list
  | acons (a as : Src)                -- an argument and the rest of the list

/-- The function being compiled (`struct PNProto` under construction, compile.c:1052-1066) and the current loop's break
and continue jumps (`struct PNLoop`, compile.c:259-265). `outer` are the locals and upvalues of the functions around it,
innermost first (reached through `f->source` in the code); `next` numbers the functions compiled so far. -/
structure CSt where
  code : Nat → Ins
  len : Nat
  locals : List Name
  values : List PN
  stack : Nat
  loop : Option (List Nat × List Nat)
  upvals : List Name
  protos : List Proto
  outer : List (List Name × List Name)
  next : Nat

/-- compile.c:14-20 `PN_ASM1`, `PN_ASM2`: append an instruction (asm.c:44-55). -/
def CSt.asm (st : CSt) (op : Opc) (a b : Int) : CSt :=
  { st with code := fun k => if k = st.len then ⟨op, trunc12 a, trunc12 b⟩ else st.code k, len := st.len + 1 }

/-- `PN_OP_AT(f->asmb, i).b = d` / `.a = d`. -/
def CSt.patchB (st : CSt) (i : Nat) (d : Int) : CSt :=
  { st with code := fun k => if k = i then { st.code i with b := trunc12 d } else st.code k }
def CSt.patchA (st : CSt) (i : Nat) (d : Int) : CSt :=
  { st with code := fun k => if k = i then { st.code i with a := trunc12 d } else st.code k }

/-- compile.c:184-186 `PN_REG`. -/
def CSt.regs (st : CSt) (reg : Nat) : CSt := if reg ≥ st.stack then { st with stack := reg + 1 } else st

/-- `PN_PUT(T, V)`: table.c:346-353 `potion_tuple_push_unless`. -/
def put {α : Type} [BEq α] [LawfulBEq α] (l : List α) (v : α) : List α × Nat :=
  if v ∈ l then (l, l.idxOf v) else (l ++ [v], l.length)

/-- compile.c:256 -/
def MAX_JUMPS : Nat := 1024

/-- `u8` arithmetic. -/
def u8 (n : Nat) : Nat := n % 256

/-- compile.c:729-736: resolve the break and continue jumps of a loop. -/
def CSt.patchAll (st : CSt) (target : Int) : List Nat → CSt
  | [] => st
  | i :: is => CSt.patchAll (st.patchA i (target - i - 1)) target is

/-- compile.c:219-235: look for a local `x` of the functions around; every function on the way gets it as an upvalue
(`PN_PUSH`, also if it has it already). -/
def pushUp (x : Name) : List (List Name × List Name) → Option (List (List Name × List Name))
  | [] => none
  | (ls, us) :: r => if x ∈ ls then some ((ls, us) :: r) else match pushUp x r with
    | none => none
    | some r => some ((ls, us ++ [x]) :: r)

/-- compile.c:212-239 `PN_UPVAL`. -/
def CSt.upval (st : CSt) (x : Name) : CSt × Option Nat :=
  if x ∈ st.locals then (st, none)
  else if x ∈ st.upvals then (st, some (st.upvals.idxOf x))
  else match pushUp x st.outer with
    | none => (st, none)
    | some out => ({ st with upvals := st.upvals ++ [x], outer := out }, some st.upvals.length)

/-- compile.c:765-771: the variable `x`, an upvalue (`true`) or a local; `none`: neither (a message in the code). -/
def CSt.look (st : CSt) (x : Name) : Option (CSt × Bool × Nat) :=
  match st.upval x with
  | (st, some n) => some (st, true, n)
  | (st, none) => if x ∈ st.locals then some (st, false, st.locals.idxOf x) else none

/-- compile.c:454-461, 535-541: the variable `x`, which becomes a local if it is neither upvalue nor local. -/
def CSt.bind (st : CSt) (x : Name) : CSt × Bool × Nat :=
  match st.upval x with
  | (st, some n) => (st, true, n)
  | (st, none) => ({ st with locals := (put st.locals x).1 }, false, (put st.locals x).2)

/-- Opcodes for reading and writing a variable. -/
def getOp (up : Bool) : Opc := if up then .getupval else .getlocal
def setOp (up : Bool) : Opc := if up then .setupval else .setlocal

/-- compile.c:1052-1066: an empty function. -/
def CSt.new : CSt :=
  { code := fun _ => ⟨.other, 0, 0⟩, len := 0, locals := [], values := [], stack := 1, loop := none, upvals := [], protos := [],
    outer := [], next := 0 }

/-- compile.c:1043-1066, 949-960: a function with parameters `ps` without types and defaults: their names become locals. -/
def CSt.open (ps : List Name) (outer : List (List Name × List Name)) (next : Nat) : CSt :=
  { CSt.new with locals := ps.foldl (fun l p => (put l p).1) [], outer := outer, next := next }

/-- compile.c:1069-1077: the end of a function with number `id`. -/
def CSt.close (st : CSt) (id : Nat) (ps : List Name) : Proto :=
  let st := st.asm .ret 0 0
  { id := id, upvalsize := st.upvals.length, localsize := st.locals.length,
    params := ps.map (ps.foldl (fun l p => (put l p).1) []).idxOf, minargs := ps.length,
    defaults := ps.map fun _ => none, stack := st.stack, values := st.values, protos := st.protos, code := st.code, len := st.len }

/-- compile.c:203-210: where the new closure takes its upvalues from. -/
def CSt.captures (st : CSt) (reg : Nat) : List Name → CSt
  | [] => st
  | x :: xs =>
    CSt.captures (if x ∈ st.upvals then st.asm .getupval reg (st.upvals.idxOf x) else st.asm .getlocal reg (st.locals.idxOf x)) reg xs

/-- The number of arguments. -/
def argc : Src → Nat
  | .acons _ as => argc as + 1
  | _ => 0

/-- The node is an AST_ASSIGN. -/
def isAssign : Src → Bool
  | .assign .. => true
  | _ => false

/-- compile.c:320-930 `potion_source_asmb(P, f, loop, count, t, reg)`; `arg` tells that the node is an operand compiled
through `PN_ARG` (compile.c:187-197), which unwraps a parenthesised list. -/
def comp : Src → (arg : Bool) → (count reg : Nat) → CSt → Option CSt
  | .skip, _, _, reg, st => some (st.regs reg)
  | .seq a b, _, _, reg, st =>                                    -- 326-335
    match comp a false 0 reg (st.regs reg) with
    | none => none
    | some st => comp b false 0 reg st
  | .chain a b, _, count, reg, st =>                              -- 337-345
    match comp a false count reg (st.regs reg) with
    | none => none
    | some st => comp b false (count + 1) reg st
  | .paren a, arg, _, reg, st => if arg then comp a false 0 reg st else none
  | .value v, _, _, reg, st =>                                    -- 351-355, 397-401
    let st := st.regs reg
    if Ops.immediate v then some (st.asm .loadpn reg v.toInt)
    else
      let (vs, num) := put st.values v
      some (CSt.asm { st with values := vs } .loadk reg num)
  | .msg x, _, count, reg, st =>                                  -- 761-772, 827-829
    if count = 0 ∧ x ∉ keywords then
      match (st.regs reg).look x with
      | none => none
      | some (st, up, num) => some (st.asm (getOp up) reg num)
    else none
  | .assign x e, _, _, reg, st =>                                 -- 432-530
    if isGlobal x then none else
    let (st, up, num) := (st.regs reg).bind x
    match comp e false 0 reg st with
    | none => none
    | some st => some (CSt.regs (st.asm (setOp up) reg num) reg)
  | .inc x n, _, _, reg, st =>                                    -- 532-556
    let (st, up, num) := (st.regs reg).bind x
    let st := st.asm (getOp up) reg num
    let breg := if isInt n then u8 (reg + 1) else reg
    let st := if isInt n then st.asm .move breg reg else st
    let st := st.asm .loadpn (breg + 1) (n ||| 1#64).toInt
    let st := st.asm .add breg (breg + 1)
    let st := st.asm (setOp up) breg num
    some (st.regs (breg + 1))
  | .bin op a b, _, _, reg, st =>                                 -- 558-583
    match comp a true 0 reg (st.regs reg) with
    | none => none
    | some st => match comp b true 0 (u8 (reg + 1)) st with
      | none => none
      | some st => some (st.asm op.opc reg (reg + 1))
  | .not a, _, _, reg, st =>                                      -- 585-588
    match comp a true 0 reg (st.regs reg) with
    | none => none
    | some st => some (st.asm .not reg reg)
  | .wavy a, _, _, reg, st =>
    match comp a true 0 reg (st.regs reg) with
    | none => none
    | some st => some (st.asm .bitn reg reg)
  | .and a b, _, _, reg, st =>                                    -- 590-598
    match comp a true 0 reg (st.regs reg) with
    | none => none
    | some st =>
      let jmp := st.len
      match comp b true 0 reg (st.asm .notjmp reg 0) with
      | none => none
      | some st => some (st.patchB jmp ((st.len : Int) - jmp - 1))
  | .or a b, _, _, reg, st =>
    match comp a true 0 reg (st.regs reg) with
    | none => none
    | some st =>
      let jmp := st.len
      match comp b true 0 reg (st.asm .testjmp reg 0) with
      | none => none
      | some st => some (st.patchB jmp ((st.len : Int) - jmp - 1))
  | .ifm c body, _, _, reg, st =>                                 -- 606-618
    let breg := u8 (reg + 1)
    match comp c false 0 breg (st.regs reg) with
    | none => none
    | some st =>
      let jmp := st.len
      match comp body false 0 reg (st.asm .notjmp breg 0) with
      | none => none
      | some st => some (CSt.regs (st.patchB jmp ((st.len : Int) - jmp - 1)) breg)
  | .elsifm c body, _, _, reg, st =>                              -- 619-632
    let breg := u8 (reg + 1)
    let st := st.regs reg
    let jmp1 := st.len
    match comp c false 0 breg (st.asm .testjmp breg 0) with
    | none => none
    | some st =>
      let jmp2 := st.len
      match comp body false 0 reg (st.asm .notjmp breg 0) with
      | none => none
      | some st =>
        let st := st.patchB jmp1 ((st.len : Int) - jmp1 - 1)
        some (CSt.regs (st.patchB jmp2 ((st.len : Int) - jmp2 - 1)) breg)
  | .elsem body, _, _, reg, st =>                                 -- 633-639
    let breg := u8 (reg + 1)
    let st := st.regs reg
    let jmp := st.len
    match comp body false 0 reg (st.asm .testjmp breg 0) with
    | none => none
    | some st => some (CSt.regs (st.patchB jmp ((st.len : Int) - jmp - 1)) breg)
  | .whilem c body, _, _, reg, st =>                              -- 700-736
    let breg := u8 (reg + 1)
    let st := st.regs reg
    let jmp2 := st.len
    match comp c false 0 breg st with
    | none => none
    | some st =>
      let outer := st.loop
      let jmp1 := st.len
      match comp body false 0 reg { st.asm .notjmp breg 0 with loop := some ([], []) } with
      | none => none
      | some st =>
        let st := st.asm .jmp ((jmp2 : Int) - st.len - 1) 0
        let st := st.patchB jmp1 ((st.len : Int) - jmp1 - 1)
        let jumps := st.loop.getD ([], [])
        let st := st.patchAll st.len jumps.1
        let st := st.patchAll jmp2 jumps.2
        some (CSt.regs { st with loop := outer } breg)
  | .loopm body, _, _, reg, st =>                                 -- 700-736
    let breg := u8 (reg + 1)
    let st := st.regs reg
    let jmp2 := st.len
    let outer := st.loop
    match comp body false 0 reg { st with loop := some ([], []) } with
    | none => none
    | some st =>
      let st := st.asm .jmp ((jmp2 : Int) - st.len - 1) 0
      let jumps := st.loop.getD ([], [])
      let st := st.patchAll st.len jumps.1
      let st := st.patchAll jmp2 jumps.2
      some (CSt.regs { st with loop := outer } breg)
  | .retv a, _, _, reg, st =>                                     -- 737-741
    match comp a false 0 reg (st.regs reg) with
    | none => none
    | some st => some (st.asm .ret reg 0)
  | .ret0, _, _, reg, st => some (CSt.asm ((st.regs reg).asm .loadpn reg 0) .ret reg 0)
  | .brk, _, _, reg, st =>                                        -- 742-748
    let st := st.regs reg
    match st.loop with
    | none => none
    | some (bs, cs) =>
      if bs.length < MAX_JUMPS then some { st.asm .jmp 0 0 with loop := some (bs ++ [st.len], cs) } else none
  | .cont, _, _, reg, st =>                                       -- 749-755
    let st := st.regs reg
    match st.loop with
    | none => none
    | some (bs, cs) =>
      if cs.length < MAX_JUMPS then some { st.asm .jmp 0 0 with loop := some (bs, cs ++ [st.len]) } else none
  | .self, _, _, reg, st => some ((st.regs reg).asm .self reg 0)  -- 756-757
  | .fn ps b, _, _, reg, st =>                                    -- 347-349, 198-211
    let st := st.regs reg
    match comp b false 0 0 (CSt.open ps ((st.locals, st.upvals) :: st.outer) (st.next + 1)) with
    | none => none
    | some g => match g.outer with
      | [] => none
      | (_, us) :: out =>
        let st := { st with upvals := us, outer := out, protos := st.protos ++ [g.close st.next ps], next := g.next }
        some ((st.asm .proto reg (st.protos.length - 1 : Nat)).captures reg g.upvals)
  | .call x as, _, count, reg, st =>                              -- 761-772, 862-874
    if count = 0 ∧ x ∉ keywords then
      match (st.regs reg).look x with
      | none => none
      | some (st, up, num) =>
        match comp as false 0 (u8 (reg + 2)) (CSt.asm (st.asm (getOp up) reg num) .self (u8 (reg + 1)) 0) with
        | none => none
        | some st => some (CSt.regs (st.asm .call reg (u8 (reg + 1 + argc as))) (u8 (reg + 1 + argc as)))
    else none
  | .anil, _, _, _, st => some st                                 -- 269-272
  | .acons a as, _, _, reg, st =>                                 -- 274-305; named arguments are not modelled
    if isAssign a then none else
    match comp a false 0 reg st with
    | none => none
    | some st => comp as false 0 (u8 (reg + 1)) st

/-- compile.c:1043-1077 `potion_source_compile` of a function with parameters `ps` without types and defaults and no
function around it. -/
def compileFn (id : Nat) (ps : List Name) (t : Src) : Option Proto :=
  match comp t false 0 0 (CSt.open ps [] (id + 1)) with
  | none => none
  | some st => some (st.close id ps)

/-- compile.c:1043-1077 `potion_source_compile` of a program without parameters. -/
def compile (t : Src) : Option Proto := compileFn 0 [] t

end Potion.Compile
