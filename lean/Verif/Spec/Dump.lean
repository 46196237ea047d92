import Verif.Model.Dump
/-!
The compiled functions that can be stored in a bytecode file.
-/
namespace Potion.Dump
open Potion
variable {D : Type}

/-- Bytes that do not continue a number. -/
def NoNumber (rest : List Byte) : Prop := ∀ b ∈ rest.head?, ¬ (48 ≤ b.toNat ∧ b.toNat ≤ 57) ∧ b ≠ 0x65#8 ∧ b ≠ 0x45#8

instance (rest : List Byte) : Decidable (NoNumber rest) := inferInstanceAs (Decidable (∀ b ∈ rest.head?, _))

/-- Constants that can be stored: immediates, strings, and doubles that survive being written as text. -/
def Plain (F : Fmt D) : Const D → Prop
  | .imm w => isPtr w = false
  | .str s => s.length < 2^28 - 1
  | .dbl d => (F.text d).length < 2^28 - 1 ∧ ∀ rest, NoNumber rest → F.read (F.text d ++ rest) = d
  | .ptr => False

def isDbl : Const D → Prop
  | .dbl _ => True
  | _ => False

/-- What follows a double (its last digit is not marked as such) does not look like more digits. -/
def Apart (F : Fmt D) (c : Const D) (next : List Byte) : Prop := isDbl c → NoNumber next

/-- The doubles of a list are not followed by what looks like more digits: the next constants, or `next`. -/
def AllApart (F : Fmt D) : List (Const D) → (next : List Byte) → Prop
  | [], _ => True
  | c :: l, next => Apart F c (l.flatMap (writeConst F) ++ next) ∧ AllApart F l next

/-- At most 255 constants, all of which can be stored. -/
def Plains (F : Fmt D) (l : List (Const D)) (next : List Byte) : Prop := l.length ≤ 255 ∧ (∀ c ∈ l, Plain F c) ∧ AllApart F l next

/-- The byte the length of a list is stored in. -/
def count {A : Type} (l : List A) : List Byte := [BitVec.ofNat 8 l.length]

mutual
/-- A compiled function: its source is the enclosing function, or nil at top level (compile.c:1057). -/
def FnOk (F : Fmt D) : (nested : Bool) → Fn D → Prop
  | nested, .mk name source sig stack values paths locals upvals protos asmb =>
    (Plain F name ∧ ¬ isDbl name) ∧ source = (if nested then .ptr else .imm PN_NIL) ∧ Plains F sig (writeConst F stack) ∧ (Plain F stack ∧ ¬ isDbl stack) ∧
    Plains F values (count paths) ∧ Plains F paths (count locals) ∧ Plains F locals (count upvals) ∧ Plains F upvals (count protos) ∧ protos.length ≤ 255 ∧ FnsOk F protos ∧ asmb.length < 2^32
def FnsOk (F : Fmt D) : List (Fn D) → Prop
  | [] => True
  | f :: fs => FnOk F true f ∧ FnsOk F fs
end

end Potion.Dump
