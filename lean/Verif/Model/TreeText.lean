import Verif.Model.Show
import Verif.Spec.TreeText
/-!
Model of the `string` method of the trees of programs (/repo/core/ast.c). Buffers as in Model/Show.lean. Lines are 32-bit numbers, compared without sign.
-/
namespace Potion.Show
open Potion Potion.Bytes Potion.Spec Potion.Peg

/-- ast.c:12-18 `potion_ast_names`. Without `debug` (p2). -/
def astName (k : Kind) : List Byte := chars (match k with
  | .code => "code" | .value => "value" | .assign => "assign" | .not => "not" | .or => "or" | .and => "and" | .cmp => "cmp" | .eq => "eq"
  | .neq => "neq" | .gt => "gt" | .gte => "gte" | .lt => "lt" | .lte => "lte" | .pipe => "pipe" | .caret => "caret" | .amp => "amp" | .wavy => "wavy"
  | .bitl => "bitl" | .bitr => "bitr" | .plus => "plus" | .minus => "minus" | .inc => "inc" | .times => "times" | .div => "div" | .rem => "rem"
  | .pow => "pow" | .msg => "msg" | .path => "path" | .query => "query" | .pathq => "pathq" | .expr => "expr" | .list => "list" | .block => "block"
  | .lick => "lick" | .proto => "proto")
/-- ast.c:20-26 `potion_ast_sizes` -/
def astSize (k : Kind) : Nat := match k with
  | .code => 1 | .value => 3 | .assign => 2 | .not => 1 | .or => 2 | .and => 2 | .cmp => 2 | .eq => 2 | .neq => 2
  | .gt => 2 | .gte => 2 | .lt => 2 | .lte => 2 | .pipe => 2 | .caret => 2 | .amp => 2 | .wavy => 1 | .bitl => 2
  | .bitr => 2 | .plus => 2 | .minus => 2 | .inc => 2 | .times => 2 | .div => 2 | .rem => 2 | .pow => 2
  | .msg => 3 | .path => 1 | .query => 1 | .pathq => 1 | .expr => 1 | .list => 1 | .block => 1 | .lick => 3
  | .proto => 2

/-- The local variables of `potion_source_string`. -/
structure SrcSt where
  out : Buf
  cut : Int
  line : Nat

/-- `PN_STR_LEN(out)`: the length, read without following the forwarding pointer that `PN_REALLOC` leaves in `out` (size `siz`) when it moves the buffer: then it
is the low half of this pointer. Simplified: the address of the moved buffer is a function `low` of its contents. -/
def strLen (low : Buf → Int) (siz : Nat) (b : Buf) : Int := if b.mem.length = siz then b.len else low b

/-- ast.c:130-137 -/
def cutAt (b : Buf) (cut : Nat) : Option Buf :=
  let at_ := if b.mem[cut - 1]? = some 0x20#8 then cut - 1 else cut
  (writeAt b.mem at_ [0#8]).map fun m => { mem := m, len := cut - 1 }

/-- ast.c:124 -/
def laterLine (x : Src) (line : Nat) : Bool := match x.line with
  | some m => decide (m > line)
  | none => false
/-- ast.c:129-140: the end of the last operand. -/
def closing (junk : Nat → Byte) (b : Buf) (cut : Int) (line : Nat) : Option SrcSt := do
  let out ← (if cut > 0 ∧ cut.toNat < b.len then cutAt b cut.toNat else some b : Option Buf)
  let out ← lit junk (some out) ")"
  some ⟨out, cut, line⟩
/-- ast.c:109-140: operand `i` of `n`, whose text is `s`. -/
def operand_ (junk : Nat → Byte) (low : Buf → Int) (siz n i : Nat) (x : Src) (s : Option (List Byte)) (st : SrcSt) : Option SrcSt := do
  let out ← lit junk (some st.out) " "
  let out ← (if i = 0 ∧ n > 1 then lit junk (some out) "(" else some out : Option Buf)
  let cut := if i = 0 ∧ n > 1 then st.cut else if i > 0 then (if x.isNil then (if st.cut = 0 then strLen low siz out else st.cut) else 0) else st.cut
  let out ← (if x.isStr then lit junk (objOut junk (lit junk (some out) "\"") s) "\"" else objOut junk (some out) s : Option Buf)
  let out ← (if laterLine x st.line then lit junk (some out) "\n" else some out : Option Buf)
  let line := if laterLine x st.line then x.line.getD st.line else st.line
  (if i = n - 1 ∧ n > 1 then closing junk out cut line else some ⟨out, cut, line⟩ : Option SrcSt)

mutual
/-- ast.c:103-145 `potion_source_string`; the texts of what is not a node. Simplified: the elements of tuples are not licks. -/
def srcString (junk : Nat → Byte) (low : Buf → Int) : Src → Option (List Byte)
  | .nil => some (chars "nil")
  | .str s => some s
  | .other s => some s
  | .tup l => (lit junk (srcLoop junk low l 0 (byteStr2 junk (chars "("))) ")").map strB
  | .node k line a b c => do
    let out ← byteStr2 junk (astName k)
    let n := astSize k
    let siz := out.mem.length
    let st ← operand_ junk low siz n 0 a (srcString junk low a) ⟨out, 0, line⟩
    let st ← (if n > 1 then operand_ junk low siz n 1 b (srcString junk low b) st else some st : Option SrcSt)
    let st ← (if n > 2 then operand_ junk low siz n 2 c (srcString junk low c) st else some st : Option SrcSt)
    some (strB st.out)
/-- table.c:545-549 -/
def srcLoop (junk : Nat → Byte) (low : Buf → Int) : Srcs → (i : Nat) → Option Buf → Option Buf
  | .nil, _, out => out
  | .cons t l, i, out =>
    let out := if i > 0 then lit junk out ", " else out
    srcLoop junk low l (i+1) (objOut junk out (srcString junk low t))
end

/-- ast.c:64-67 `size`, 71-74 `name`, 87-90 `lineno` -/
def srcSize : Src → Option PN
  | .node k _ _ _ _ => some (pnNum (astSize k))
  | _ => none
def srcName : Src → Option (List Byte)
  | .node k _ _ _ _ => some (astName k)
  | _ => none
def srcLineno : Src → Option PN
  | .node _ n _ _ _ => some (pnNum (n : Int))
  | _ => none

end Potion.Show
