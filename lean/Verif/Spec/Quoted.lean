import Verif.Spec.Decimal
import Mathlib.Data.List.Forall2
import Verif.Spec.Utf8
/-!
String literals: the text between the quotes and the bytes it stands for.
-/
namespace Potion.Spec

/-- A character of a literal: a tab, printable ASCII, a newline, or a UTF-8 sequence of two to four bytes. -/
inductive TextChar : List (BitVec 8) → Prop
  | ascii {c : BitVec 8} : c = 0x09#8 ∨ (0x20 ≤ c.toNat ∧ c.toNat ≤ 0x7E) → TextChar [c]
  | newline : TextChar [0x0A#8]
  | two {a b : BitVec 8} : 0xC2 ≤ a.toNat → a.toNat ≤ 0xDF → Continuation b → TextChar [a, b]
  | three {a b c : BitVec 8} : 0xE0 ≤ a.toNat → a.toNat ≤ 0xEF → Continuation b → Continuation c → TextChar [a, b, c]
  | four {a b c d : BitVec 8} : 0xF0 ≤ a.toNat → a.toNat ≤ 0xF4 → Continuation b → Continuation c → Continuation d → TextChar [a, b, c, d]

/-- Between single quotes: a quote is written twice. -/
inductive Single : List (BitVec 8) → List (BitVec 8) → Prop
  | nil : Single [] []
  | char {u s v} : TextChar u → u ≠ [0x27#8] → Single s v → Single (u ++ s) (u ++ v)
  | quote {s v} : Single s v → Single (0x27#8 :: 0x27#8 :: s) (0x27#8 :: v)

/-- `\"`, `\n`, `\b`, `\f`, `\r`, `\t`. -/
def escapes : List (BitVec 8 × BitVec 8) :=
  [(0x22#8, 0x22#8), (0x6E#8, 0x0A#8), (0x62#8, 0x08#8), (0x66#8, 0x0C#8), (0x72#8, 0x0D#8), (0x74#8, 0x09#8)]

/-- Between double quotes: a backslash begins one of the escapes, `\uXXXX` or `\U{X...}` with the code of a character, or stands before any other character for
that character. The codes C0, C1, 7FF, FFFF and 10FFFF are left out (C20). -/
inductive Double : List (BitVec 8) → List (BitVec 8) → Prop
  | nil : Double [] []
  | char {u s v} : TextChar u → u ≠ [0x22#8] → u ≠ [0x5C#8] → Double s v → Double (u ++ s) (u ++ v)
  | escape {c d s v} : (c, d) ∈ escapes → Double s v → Double (0x5C#8 :: c :: s) (d :: v)
  | code4 {ds cs t s v} : List.Forall₂ HexChar ds cs → ds.length = 4 → Scalar (numeral 16 ds) → numeral 16 ds ∉ [0xC0, 0xC1, 0x7FF] →
      t.map BitVec.toNat = utf8 (numeral 16 ds) → Double s v → Double (0x5C#8 :: 0x75#8 :: (cs ++ s)) (t ++ v)
  | code {ds cs t s v} : List.Forall₂ HexChar ds cs → ds ≠ [] → Scalar (numeral 16 ds) → numeral 16 ds ∉ [0xC0, 0xC1, 0x7FF, 0xFFFF, 0x10FFFF] →
      t.map BitVec.toNat = utf8 (numeral 16 ds) → Double s v → Double (0x5C#8 :: 0x55#8 :: 0x7B#8 :: (cs ++ 0x7D#8 :: s)) (t ++ v)
  | other {u s v} : TextChar u → (∀ c d, (c, d) ∈ escapes → u ≠ [c]) → u ≠ [0x75#8] → u ≠ [0x55#8] → Double s v → Double (0x5C#8 :: (u ++ s)) (u ++ v)

/-- A literal with its quotes. -/
inductive IsString : List (BitVec 8) → List (BitVec 8) → Prop
  | single {s v} : Single s v → IsString (0x27#8 :: (s ++ [0x27#8])) v
  | double {s v} : Double s v → IsString (0x22#8 :: (s ++ [0x22#8])) v

end Potion.Spec
