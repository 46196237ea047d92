/-! Specification of UTF-8 text, independent of the model. -/
namespace Potion.Spec

/-- A continuation byte: 10xxxxxx. -/
def Continuation (b : BitVec 8) : Prop := 0x80 ≤ b.toNat ∧ b.toNat < 0xC0

instance (b : BitVec 8) : Decidable (Continuation b) := inferInstanceAs (Decidable (_ ∧ _))

/-- The bytes of one character: a first byte that is neither NUL nor a continuation byte, then continuation bytes. -/
def IsChar : List (BitVec 8) → Prop
  | [] => False
  | b :: t => b ≠ 0#8 ∧ ¬ Continuation b ∧ ∀ x ∈ t, Continuation x

instance (c : List (BitVec 8)) : Decidable (IsChar c) :=
  match c with
  | [] => isFalse id
  | b :: t => inferInstanceAs (Decidable (b ≠ 0#8 ∧ ¬ Continuation b ∧ ∀ x ∈ t, Continuation x))

/-- A text: a sequence of characters. Its bytes are `cs.flatten`. -/
def IsText (cs : List (List (BitVec 8))) : Prop := ∀ c ∈ cs, IsChar c

instance (cs : List (List (BitVec 8))) : Decidable (IsText cs) := inferInstanceAs (Decidable (∀ _ ∈ _, _))

/-- The UTF-8 encoding of a code point (RFC 3629). -/
def utf8 (c : Nat) : List Nat :=
  if c < 0x80 then [c]
  else if c < 0x800 then [0xC0 + c / 64, 0x80 + c % 64]
  else if c < 0x10000 then [0xE0 + c / 4096, 0x80 + c / 64 % 64, 0x80 + c % 64]
  else [0xF0 + c / 262144, 0x80 + c / 4096 % 64, 0x80 + c / 64 % 64, 0x80 + c % 64]

/-- Unicode scalar values. -/
def Scalar (c : Nat) : Prop := c < 0xD800 ∨ (0xE000 ≤ c ∧ c ≤ 0x10FFFF)

instance (c : Nat) : Decidable (Scalar c) := inferInstanceAs (Decidable (_ ∨ _))

/-- The NUL-terminated bytes `s` (none of them NUL) lie in memory at address `p`. -/
def HoldsAt (m : Nat → BitVec 8) (p : Nat) (s : List (BitVec 8)) : Prop :=
  (∀ i (h : i < s.length), m (p + i) = s[i]) ∧ m (p + s.length) = 0#8 ∧ ∀ b ∈ s, b ≠ 0#8

end Potion.Spec
