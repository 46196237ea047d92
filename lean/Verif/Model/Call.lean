import Verif.Model.Sig
import Verif.Model.Vm
/-!
Model of calls between the interpreter and functions written in C: CALL of a closure that is not compiled code
(/repo/core/vm.c 803-830, 440-457), `potion_call` (/repo/core/internal.c 142-200), and the entry from C into compiled code,
`potion_vm_proto` (/repo/core/vm.c 159-198). Values are the elements of signature tuples (`Sig.Item`); what the called
function does is not modelled: the outcome is the list of arguments it gets.
-/
namespace Potion.Call
open Potion Potion.Sig

/-- potion.h:805-810 `potion_type_default`. The argument is a `char`. -/
def typeDefault (type : Int) : Item :=
  if type = 78 then .num 0                             -- 'N'
  else if type = 73 then .num 0                        -- 'I'
  else if type = 83 then .str []                       -- 'S'
  else .other PN_NIL

/-- The conversion of an `int` to the (signed) `char` of the parameter of `potion_type_default`. -/
def toChar (i : Int) : Int := Int.bmod i 256

/-- objmodel.c:17-36 `potion_closure_new`: what the closure keeps of the signature it is made with. `none` is nil: no
signature, or an empty one. -/
structure Callee where
  sig : Option (List Item)
  arity : Int
  minargs : Int
def closure (sig : List Item) : Option Callee :=
  if sig.length > 0 then (arity sig).map fun n => ⟨some sig, n, minargs sig⟩
  else some ⟨none, 0, 0⟩

/-- vm.c:440-457 `potion_sig_check`: is there an error? -/
def sigCheck (c : Callee) (arity numargs : Int) : Bool :=
  if numargs > 0 then
    if numargs < c.minargs then true
    else if numargs > arity then true
    else false
  else false

/-- The outcome of a call: the run ends with an error object, the call answers nil or an error without calling, or the
function is called with these arguments (the first is `self`). -/
inductive Outcome
  | ends
  | empty
  | nil
  | calls (args : List Item)
  deriving DecidableEq, Repr

/-- internal.c:148-198: the elements of `argv` passed for each `argc`. -/
def passed : Nat → Option (List Nat)
  | 1 => some [0]
  | 2 => some [0, 1]
  | 3 => some [0, 1, 2]
  | 4 => some [0, 1, 2, 3]
  | 5 => some [0, 1, 2, 3, 4]
  | 6 => some [0, 1, 2, 3, 4, 5]
  | 7 => some [0, 1, 2, 3, 4, 5, 6]
  | 8 => some [0, 1, 2, 3, 4, 5, 6, 7]
  | 9 => some [0, 1, 2, 3, 4, 5, 6, 7, 8]
  | 10 => some [0, 1, 2, 3, 4, 5, 6, 7, 8, 9]
  | 11 => some [0, 1, 2, 3, 4, 5, 6, 7, 8, 9, 10]
  | 12 => some [0, 1, 2, 3, 4, 5, 6, 7, 8, 9, 10, 11]
  | 13 => some [0, 1, 2, 3, 4, 5, 6, 7, 8, 9, 10, 11, 12]
  | 14 => some [0, 1, 2, 3, 4, 5, 6, 7, 8, 9, 10, 11, 12, 13]
  | 15 => some [0, 1, 2, 3, 4, 5, 6, 7, 8, 9, 10, 11, 12, 13, 14]
  | _ => none

/-- internal.c:142-200 `potion_call` of the closure `cl` (`filled`: it and its method are not null). `argc` is unsigned
32 bits. `argv i = none` is outside the stack, and reading it has no defined outcome. -/
def potionCall (filled : Bool) (cl : Item) (argc : Int) (argv : Nat → Option Item) : Option Outcome :=
  let argc := (BitVec.ofInt 32 argc).toNat
  if !filled then some .empty
  else if argc = 0 then some (.calls [cl])
  else match passed argc with
    | some l => (l.mapM argv).map .calls
    | none => some .nil

/-- The registers: `reg[i]` for `i < room`, up to the end of the stack array (vm.c:600). -/
structure Regs where
  at_ : Nat → Item
  room : Nat
def Regs.get (r : Regs) (i : Nat) : Option Item := if i < r.room then some (r.at_ i) else none
def Regs.set (r : Regs) (i : Nat) (v : Item) : Option Regs :=
  if i < r.room then some { r with at_ := fun j => if j = i then v else r.at_ j } else none

/-- vm.c:822-826: the value for parameter `i`: inner `none` is no store, outer `none` is a read outside the tuple
`potion_sig_at` made. -/
def leftOut (sig : List Item) (i : Nat) : Option (Option Item) :=
  match sigAt sig i with
  | none => none
  | some none => some none
  | some (some s) =>
    if s.length = 3 then some s[2]?
    else match (s[1]? : Option Item) with
      | some (.num t) => some (some (typeDefault (toChar t)))
      | some _ => none
      | none => none

/-- vm.c:821-828: the loop from `i`, `k` times; `op.b` is a field of 12 bits. -/
def fill (sig : List Item) (a : Nat) : (k i : Nat) → Int → Regs → Option (Int × Regs)
  | 0, _, b, r => some (b, r)
  | k+1, i, b, r => match leftOut sig i with
    | none => none
    | some none => fill sig a k (i+1) (Vm.trunc12 (b + 1)) r
    | some (some v) => match r.set (a + i + 2) v with
      | none => none
      | some r => fill sig a k (i+1) (Vm.trunc12 (b + 1)) r

/-- vm.c:803-830: CALL a b, when register `a` holds the closure `cl`, made with signature `c` and not compiled code. -/
def call (cl : Item) (c : Callee) (a : Nat) (b : Int) (r : Regs) : Option Outcome :=
  let numargs := b - a - 1
  match c.sig with
  | none => potionCall true cl (b - a) fun i => r.get (a + 1 + i)
  | some sig =>
    if sigCheck c c.arity numargs then some .ends
    else if numargs < 0 then none
    else match fill sig a (c.arity - numargs).toNat numargs.toNat b r with
      | none => none
      | some (b, r) => potionCall true cl (b - a) fun i => r.get (a + 1 + i)

/-- What `potion_vm_proto` asks about a word: the bounds of the young generation, the addresses of strings and the type
characters (internal.c:206-234) of heap objects. -/
structure World where
  mem : PN
  birthHi : PN
  strAt : List (BitVec 8) → PN
  kind : PN → Int

/-- The word of a value. -/
def World.word (W : World) : Item → PN
  | .str s => W.strAt s
  | .num i => pnNum i
  | .other w => w

/-- potion.h:532-546 `potion_type` and internal.c:206-234 `potion_type_char`. -/
def World.char (W : World) : Item → Int
  | .str _ => 83
  | .num _ => 78
  | .other w => if isInt w then 78 else if isBool w then 66 else if isNil w then 110 else W.kind w

/-- potion.h:181-182 `PN_IS_FFIPTR`. -/
def World.ffi (W : World) (v : Item) : Bool :=
  let p := W.word v
  (isPtr p && !(decide (W.mem ≤ p) && decide (p ≤ W.birthHi))) || (!isPtr p && decide (W.birthHi < p))

/-- vm.c:174-193: one parameter. `va` is the next variadic argument. -/
def World.param (W : World) (sig : List Item) (minargs : Int) (numargs : Nat) (i : Nat) (va : Item) : Option Item :=
  match sigAt sig i with
  | some (some s) =>
    if (i : Int) < minargs ∨ s.length < 2 then some va
    else
      let type : Int := if s.length > 2 then (s[2]?.map fun d => toChar (W.char d)).getD 0
        else match (s[1]? : Option Item) with
          | some (.num t) => toChar t
          | _ => 0
      if (numargs ≠ 0 ∧ numargs ≤ i) ∨ W.ffi va = true ∨ (type ≠ 0 ∧ W.char va ≠ type) then
        if s.length = 3 then s[2]? else some (typeDefault type)
      else some va
  | _ => none

/-- vm.c:159-198 `potion_vm_proto` of a function with this signature, called from C with `self` and the variadic
arguments `va` (those after the ones the caller passed are whatever the registers and the stack hold): the `self` and
the arguments the compiled code runs with. -/
def vmProto (W : World) (sig : List Item) (c : Callee) (self : Item) (va : Nat → Item) : Option (Item × List Item) :=
  let small := (W.word self).toNat < 10
  let numargs := if small then (W.word self).toNat else 0
  let self := if small then .other PN_NIL else self
  ((List.range c.arity.toNat).mapM fun i => W.param sig c.minargs numargs i (va i)).map fun l => (self, l)

end Potion.Call
