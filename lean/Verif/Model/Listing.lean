import Verif.Model.SigShow
import Verif.Spec.Listing
/-!
Model of the `string` method of compiled functions (/repo/core/compile.c 28-43, 98-182), without JIT_DEBUG. What libc's formats make is written out: `%u`, `%ld`,
`%d` decimal numbers, `%-8s`, `%*u` and `%*s` with blanks. Buffers as in Model/Show.lean.
-/
namespace Potion.Show
open Potion Potion.Dec
open Potion.Spec hiding Op
open Potion.Bytes hiding Op
open Potion.Sig (Item encode)
open Potion.CompileAll (Ins Op)

/-- compile.c:28-43 `potion_ops` -/
def potionOps : List (String × Nat) := [
  ("noop", 0), ("move", 2), ("loadk", 2), ("loadpn", 2), ("self", 1),
  ("newtuple", 2), ("gettuple", 2), ("settuple", 2), ("getlocal", 2), ("setlocal", 2),
  ("getupval", 2), ("setupval", 2), ("global", 2), ("gettable", 2),
  ("settable", 2), ("newlick", 2), ("getpath", 2), ("setpath", 2),
  ("add", 2), ("sub", 2), ("mult", 2), ("div", 2), ("mod", 2), ("pow", 2),
  ("not", 1), ("cmp", 2), ("eq", 2), ("neq", 2), ("lt", 2), ("lte", 2),
  ("gt", 2), ("gte", 2), ("bitn", 2), ("bitl", 2), ("bitr", 2), ("def", 2),
  ("bind", 2), ("msg", 2), ("jump", 1), ("test", 2), ("testjmp", 2),
  ("notjmp", 2), ("named", 2), ("call", 2), ("callset", 2), ("tailcall", 2),
  ("return", 1), ("proto", 2), ("class", 2), ("debug", 2)]

/-- string.c:361-382 `pn_printf`. -/
def put (junk : Nat → Byte) (s : List Byte) (out : Option Buf) : Option Buf := match out with
  | some b => printf b junk s
  | none => none
/-- string.c:384-386 `potion_bytes_obj_string` of a value with the text `s`. -/
def obj (junk : Nat → Byte) (s : Option (List Byte)) (out : Option Buf) : Option Buf := objOut junk out s

/-- compile.c:111-134: a section; `head` and the texts of its values. -/
def section_ (junk : Nat → Byte) (head : String) : List (Option (List Byte)) → (i : Nat) → Option Buf → Option Buf
  | [], _, out => out
  | v :: l, i, out => section_ junk head l (i + 1) (put junk (chars " ; " ++ natText 20 i ++ chars "\n") (obj junk v (put junk (chars head) out)))

/-- `PN_TUPLE_AT`; `none` outside of the tuple. -/
def tupleAt (l : List (List Byte)) (i : Int) : Option (List Byte) := if i < 0 then none else l[i.toNat]?

/-- compile.c:139: `ceil(log10(n))`. Simplified: without rounding errors. -/
def numCols (n : Nat) : Nat := Nat.clog 10 n

/-- compile.c:142-143: the formatted text. -/
def insHead (cols num : Nat) (name : String) (a : Int) : List Byte :=
  let s := natText 20 num
  let t := chars name
  chars "[" ++ (List.replicate (cols - s.length) 0x20#8 ++ s) ++ chars "] " ++ (t ++ List.replicate (8 - t.length) 0x20#8) ++ chars " " ++ intText a

/-- compile.c:155-176 -/
def comment (junk : Nat → Byte) (locals values : List (List Byte)) (num : Nat) (i : Ins) (out : Option Buf) : Option Buf := match i.op with
  | .jmp => put junk (chars "; to " ++ intText (cInt ((num : Int) + i.a + 1))) out
  | .notjmp | .testjmp => put junk (chars "; to " ++ intText (cInt ((num : Int) + i.b + 1))) out
  | .loadpn => obj junk (elemText (if i.b % 2 = 1 then .num (i.b / 2) else .other (BitVec.ofInt 64 i.b))) (put junk (chars "; ") out)
  | .loadk => obj junk (tupleAt values i.b) (put junk (chars "; ") out)
  | .setlocal | .getlocal => obj junk (tupleAt locals i.b) (put junk (chars "; ") out)
  | _ => out

/-- compile.c:142-151: the formatted texts `h` and, if there is more than one operand, `h2`; blanks up to `commentoffset`. -/
def insRow (junk : Nat → Byte) (h h2 : List Byte) (args : Nat) (out : Option Buf) : Option Buf :=
  let out := put junk h out
  let out := if args > 1 then put junk h2 out else out
  let width := h.length + (if args > 1 then h2.length else 0)
  if width < 20 then put junk (List.replicate (20 - width) 0x20#8) out else put junk (chars " ") out

/-- compile.c:140-179: `num = x + 1`. -/
def insLoop (junk : Nat → Byte) (locals values : List (List Byte)) (cols : Nat) : List Ins → (num : Nat) → Option Buf → Option Buf
  | [], _, out => out
  | i :: l, num, out =>
    match potionOps[i.op.ctorIdx]? with
    | none => none
    | some (name, args) => insLoop junk locals values cols l (num + 1)
        (put junk (chars "\n") (comment junk locals values num i (insRow junk (insHead cols num name i.a) (chars " " ++ intText i.b) args out)))

/-- compile.c:107-110 -/
def heading (junk : Nat → Byte) (name : Option (List Byte)) (out : Option Buf) : Option Buf := match name with
  | some n => put junk (chars "; " ++ n ++ chars "(") out
  | none => put junk (chars "; (") out

/-- compile.c:103-181: what is added to `; function definition`; `inner` adds the functions inside. -/
def protoOut (junk : Nat → Byte) (name : Option (List Byte)) (sig : List Item) (stack : Nat) (paths : List Nat) (locals upvals values : List (List Byte)) (code : List Ins)
    (inner : Option Buf → Option Buf) (out : Option Buf) : Option Buf :=
  let out := put junk (chars ": " ++ natText 20 (4 * code.length) ++ chars " bytes\n") out
  let out := heading junk name out
  let out := put junk (chars ") " ++ natText 20 stack ++ chars " registers\n") (obj junk (sigString junk (some sig)) out)
  let out := section_ junk ".path /" (paths.map fun (p : Nat) => tupleAt values p) 0 out
  let out := section_ junk ".local " (locals.map some) 0 out
  let out := section_ junk ".upval " (upvals.map some) 0 out
  let out := section_ junk ".value " (values.map some) 0 out
  let out := inner out
  let out := insLoop junk locals values (numCols code.length) code 1 out
  put junk (chars "; function end\n") out

mutual
/-- compile.c:98-182 `potion_proto_string` -/
def protoString (junk : Nat → Byte) : LFn → Option (List Byte)
  | .mk name sig stack paths locals upvals values protos code =>
    (protoOut junk name (encode sig) stack paths locals upvals values code (fun out => protoLoop junk protos out) (byteStr2 junk (chars "; function definition"))).map strB
/-- compile.c:135-137 -/
def protoLoop (junk : Nat → Byte) : LFns → Option Buf → Option Buf
  | .nil, out => out
  | .cons f l, out => protoLoop junk l (obj junk (protoString junk f) out)
end

end Potion.Show
