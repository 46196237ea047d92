import Verif.Proof.TreeText
import Verif.Proof.Number
/-! C80: the text of the tree of a program. -/
namespace Potion.Show
open Potion Potion.Bytes Potion.Spec Potion.Peg

mutual
theorem src_ok (junk : Nat → Byte) (low : Buf → Int) (lim : Nat) (hlim : lim ≤ 2^31) (far : ∀ b, low b ≤ 0 ∨ (lim : Int) ≤ low b) :
    ∀ t : Src, t.text.length + 24 < lim → srcString junk low t = some t.text
  | .nil, _ => rfl
  | .str _, _ => rfl
  | .other _, _ => rfl
  | .tup l, h => by
    obtain ⟨b0, e0, h0⟩ := byteStr2_spec junk (chars "(") (by decide)
    rw [Src.text] at h ⊢
    simp only [List.length_append] at h
    obtain ⟨b1, e1, h1⟩ := srcs_ok junk low lim hlim far l 0 b0 (chars "(") h0 (by rw [sepTexts_zero]; omega)
    rw [sepTexts_zero] at h1
    obtain ⟨b3, e3, h3⟩ := lit_ok junk ")" h1 (by simp only [List.length_append]; omega)
    rw [srcString, e0, e1, e3, Option.map_some, strB_ok h3]
  | .node k n a b c, h => node_ok junk low lim hlim far k n a b c (src_ok junk low lim hlim far a) (src_ok junk low lim hlim far b)
      (src_ok junk low lim hlim far c) h
theorem srcs_ok (junk : Nat → Byte) (low : Buf → Int) (lim : Nat) (hlim : lim ≤ 2^31) (far : ∀ b, low b ≤ 0 ∨ (lim : Int) ≤ low b) :
    ∀ (l : Srcs) (i : Nat) (b : Buf) (t : List Byte), Holds b t → t.length + (sepTexts i l.texts).length + 24 < lim →
      ∃ b', srcLoop junk low l i (some b) = some b' ∧ Holds b' (t ++ sepTexts i l.texts)
  | .nil, _, b, t, hb, _ => ⟨b, rfl, by simpa [Srcs.texts, sepTexts] using hb⟩
  | .cons v l, i, b, t, hb, hl => by
    rw [Srcs.texts, sepTexts] at hl ⊢
    simp only [List.length_append] at hl
    have e1 : ∃ b', (if i > 0 then lit junk (some b) ", " else some b) = some b' ∧ Holds b' (t ++ (if i > 0 then chars ", " else [])) := by
      by_cases hi : i > 0
      · rw [if_pos hi, if_pos hi]; rw [if_pos hi] at hl; exact lit_ok junk _ hb (by omega)
      · rw [if_neg hi, if_neg hi]; exact ⟨b, rfl, by simpa using hb⟩
    obtain ⟨b1, e1, h1⟩ := e1
    obtain ⟨b2, e2, h2⟩ := obj_ok (s := v.text) junk h1 (by simp only [List.length_append]; omega)
    obtain ⟨b3, e3, h3⟩ := srcs_ok junk low lim hlim far l (i+1) b2 _ h2 (by simp only [List.length_append]; omega)
    refine ⟨b3, ?_, by simpa using h3⟩
    rw [srcLoop]
    rw [e1, src_ok junk low lim hlim far v (by omega), e2, e3]
end

/-- C80: the text of a tree is that of the specification: kinds and operands in order, nil at the end left out if the text before it is of at most 14 characters.
`lim` bounds the text; the low half of the address of a buffer that was moved is not a number between 0 and `lim`. -/
theorem C80_text (junk : Nat → Byte) (low : Buf → Int) (lim : Nat) (hlim : lim ≤ 2^31) (far : ∀ b, low b ≤ 0 ∨ (lim : Int) ≤ low b) (t : Src)
    (h : t.text.length + 24 < lim) : srcString junk low t = some t.text := src_ok junk low lim hlim far t h

/-- C80: `name`, `size` and `lineno` of a node are the first word of its text, its number of operands and its line. -/
theorem C80_parts (k : Kind) (n : Nat) (a b c : Src) (hn : n < 2 ^ 32) :
    srcName (.node k n a b c) = some (chars (kindName k)) ∧ (∃ w, srcSize (.node k n a b c) = some w ∧ Denotes w (operands k)) ∧
    (∃ w, srcLineno (.node k n a b c) = some w ∧ Denotes w n) ∧ ∃ r, (Src.node k n a b c).text = chars (kindName k) ++ chars " " ++ r := by
  refine ⟨by rw [srcName, name_kindName], ⟨_, rfl, ?_⟩, ⟨_, rfl, ?_⟩, ?_⟩
  · rw [size_operands]
    refine denotes_pnNum ?_
    have : operands k ≤ 3 := by cases k <;> decide
    unfold InRange; omega
  · refine denotes_pnNum ?_
    unfold InRange; omega
  · rw [node_text]
    have e1 : (chars " (") = chars " " ++ chars "(" := rfl
    dsimp only
    rw [e1]
    repeat' split
    all_goals simp only [List.append_assoc]
    all_goals exact ⟨_, rfl⟩

/-- C80: no nil at the end of a node is shown by nodes with a short first operand, all are by the others. -/
theorem C80_refuted_nil (junk : Nat → Byte) (low : Buf → Int) (lim : Nat) (hlim : lim ≤ 2^31) (far : ∀ b, low b ≤ 0 ∨ (lim : Int) ≤ low b) (h : 100 ≤ lim) :
    srcString junk low (.node .msg 1 (.str (chars "print")) .nil .nil) = some (chars "msg (\"print\")") ∧
    srcString junk low (.node .msg 1 (.str (chars "continue")) .nil .nil) = some (chars "msg (\"continue\" nil nil)") := by
  have e1 : (Src.node .msg 1 (.str (chars "print")) .nil .nil).text = chars "msg (\"print\")" := by decide +kernel
  have e2 : (Src.node .msg 1 (.str (chars "continue")) .nil .nil).text = chars "msg (\"continue\" nil nil)" := by decide +kernel
  constructor
  · rw [C80_text junk low lim hlim far _ (by rw [e1]; simp [chars]; omega), e1]
  · rw [C80_text junk low lim hlim far _ (by rw [e2]; simp [chars]; omega), e2]

/-- C80: quotes in strings are not escaped: different trees have the same text. -/
theorem C80_refuted_quote (junk : Nat → Byte) (low : Buf → Int) (lim : Nat) (hlim : lim ≤ 2^31) (far : ∀ b, low b ≤ 0 ∨ (lim : Int) ≤ low b) (h : 100 ≤ lim) :
    srcString junk low (.node .eq 1 (.str (chars "a\" \"b")) (.str (chars "c"))  .nil) =
      srcString junk low (.node .eq 1 (.str (chars "a")) (.str (chars "b\" \"c"))  .nil) := by
  have e1 : (Src.node .eq 1 (.str (chars "a\" \"b")) (.str (chars "c"))  .nil).text = (Src.node .eq 1 (.str (chars "a")) (.str (chars "b\" \"c"))  .nil).text := by
    decide +kernel
  have e2 : (Src.node .eq 1 (.str (chars "a")) (.str (chars "b\" \"c"))  .nil).text = chars "eq (\"a\" \"b\" \"c\")" := by decide +kernel
  rw [C80_text junk low lim hlim far _ (by rw [e1, e2]; simp [chars]; omega), C80_text junk low lim hlim far _ (by rw [e2]; simp [chars]; omega), e1]

/-- Addresses that are far. -/
example : ∀ b : Buf, (fun _ : Buf => (0x7f001230 : Int)) b ≤ 0 ∨ ((1000000 : Nat) : Int) ≤ (fun _ : Buf => (0x7f001230 : Int)) b := fun _ => .inr (by show ((1000000 : Nat) : Int) ≤ 0x7f001230; decide)

/-- The tree of `x = 5` followed by `x continue` on the next line. -/
example : (Src.node .code 1 (.tup (.cons (.node .assign 1 (.node .expr 1 (.tup (.cons (.node .msg 1 (.str (chars "x")) .nil .nil) .nil)) .nil .nil)
      (.node .expr 1 (.tup (.cons (.node .value 1 (.other (chars "5")) .nil .nil) .nil)) .nil .nil) .nil)
    (.cons (.node .expr 2 (.tup (.cons (.node .msg 2 (.str (chars "x")) .nil .nil) (.cons (.node .msg 2 (.str (chars "continue")) .nil .nil) .nil))) .nil .nil) .nil)))
      .nil .nil).text =
    chars "code (assign (expr (msg (\"x\")) expr (value (5))), expr (msg (\"x\"), msg (\"continue\" nil nil)))" := by decide +kernel

end Potion.Show
