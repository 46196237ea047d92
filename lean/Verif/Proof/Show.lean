import Verif.Model.Show
import Verif.Proof.Bytes
import Verif.Proof.Decimal
/-! Proofs about the text of values. -/
namespace Potion.Show
open Potion Potion.Bytes Potion.Spec Potion.Dec

theorem natText_digits : ∀ (f n : Nat), n < 10 ^ f → 0 < f → natText f n = (digits n).map digitChar
  | 0, _, _, h => absurd h (by omega)
  | f+1, n, h, _ => by
    rw [natText, digits]
    by_cases hn : n < 10
    · rw [if_pos hn, if_pos hn]; rfl
    · rw [if_neg hn, if_neg hn]
      have : n / 10 < 10 ^ f := by rw [Nat.pow_succ] at h; omega
      rw [natText_digits f (n / 10) this (by rcases f with _ | f <;> simp at this ⊢; omega)]
      simp [digitChar]

theorem numString_text {i : Int} (h : InRange i) :
    numString (pnNum i) = chars (if i < 0 then "-" else "") ++ (digits i.natAbs).map digitChar := by
  unfold numString intText
  rw [pnInt_pnNum_of_fits (by unfold Fits63; unfold InRange at h; omega), natText_digits 20 _ (by unfold InRange at h; omega) (by omega)]
  by_cases hi : i < 0
  · rw [if_pos hi, if_pos hi]; rfl
  · rw [if_neg hi, if_neg hi]; rfl

/-- The texts, each but the very first with `, ` before it. -/
def sepTexts : Nat → List (List Byte) → List Byte
  | _, [] => []
  | i, s :: r => (if i > 0 then chars ", " else []) ++ s ++ sepTexts (i+1) r

theorem sepTexts_succ (i : Nat) (s : List Byte) (r : List (List Byte)) :
    sepTexts (i+1) (s :: r) = chars ", " ++ listed (s :: r) := by
  induction r generalizing i s with
  | nil => simp [sepTexts, listed]
  | cons s' r ih => rw [sepTexts, ih, if_pos (by omega)]; simp [listed]

theorem sepTexts_zero (l : List (List Byte)) : sepTexts 0 l = listed l := by
  cases l with
  | nil => rfl
  | cons s r => cases r with
    | nil => simp [sepTexts, listed]
    | cons s' r => rw [sepTexts, sepTexts_succ]; simp [listed]

theorem lit_ok {b : Buf} {l : List Byte} (junk : Nat → Byte) (s : String) (h : Holds b l) (hn : l.length + (chars s).length < 2^31) :
    ∃ b', lit junk (some b) s = some b' ∧ Holds b' (l ++ chars s) := printf_spec h junk _ hn

theorem obj_ok {b : Buf} {l s : List Byte} (junk : Nat → Byte) (h : Holds b l) (hn : l.length + s.length < 2^31) :
    ∃ b', objOut junk (some b) (some s) = some b' ∧ Holds b' (l ++ s) := append_spec h junk s hn

theorem poke_ok {b : Buf} {x y : Byte} {l : List Byte} (h : Holds b (x :: l)) :
    ∃ b', poke0 (some b) y = some b' ∧ Holds b' (y :: l) := by
  obtain ⟨h1, h2, h3, h4⟩ := h
  obtain ⟨mem, len⟩ := b
  cases mem with
  | nil => simp at h2
  | cons a m =>
    simp only [List.length_cons] at h1 h2
    subst h1
    refine ⟨{ mem := y :: m, len := l.length + 1 }, ?_, rfl, by simpa using h2, ?_, ?_⟩
    · simp [poke0, writeAt]
    · simp at h3 ⊢; exact h3.2
    · simpa using h4

theorem strB_ok {b : Buf} {l : List Byte} (h : Holds b l) : strB b = l := h.2.2.1

theorem licks_le : ∀ l : Data, lickCount l ≤ dataLen l
  | .nil => by simp [lickCount, dataLen]
  | .cons v l => by
    have := licks_le l
    cases v <;> simp [lickCount, dataLen] <;> omega

theorem allLicks_iff : ∀ l : Data, (lickCount l = dataLen l) ↔ l.allLicks = true
  | .nil => by simp [lickCount, dataLen, Data.allLicks]
  | .cons v l => by
    have ih := allLicks_iff l
    have := licks_le l
    cases v <;> simp [lickCount, dataLen, Data.allLicks, Datum.isLick, ih] <;> omega

theorem licks_test (l : Data) : (decide (lickCount l > 0) && decide (lickCount l = dataLen l)) = (l.allLicks && !l.isEmpty) := by
  have h := allLicks_iff l
  rw [Bool.eq_iff_iff]
  simp only [Bool.and_eq_true, decide_eq_true_eq, h, Bool.not_eq_true']
  constructor
  · rintro ⟨h1, h2⟩
    refine ⟨h2, ?_⟩
    cases l with
    | nil => simp [lickCount] at h1
    | cons v l => rfl
  · rintro ⟨h1, h2⟩
    refine ⟨?_, h1⟩
    have := h.2 h1
    cases l with
    | nil => simp [Data.isEmpty] at h2
    | cons v l => simp [dataLen] at this; omega

mutual
theorem string_ok (junk : Nat → Byte) : ∀ v : Datum, v.Ok → v.text.length < 2^31 → string junk v = some v.text
  | .nil, _, _ => rfl
  | .bool b, _, _ => by cases b <;> rfl
  | .int i, h, _ => by rw [string, numString_text h]; rfl
  | .str s, _, _ => rfl
  | .list l, h, hn => by
    rw [Datum.Ok] at h
    rw [string]
    obtain ⟨b0, e0, h0⟩ := byteStr2_spec junk (chars "(") (by decide)
    have hlen : (chars "(").length + (sepTexts 0 l.texts).length + 1 < 2^31 := by
      rw [sepTexts_zero]; rw [Datum.text] at hn
      split at hn <;> (simp only [List.length_append] at hn; simp [chars] at hn ⊢; omega)
    obtain ⟨b1, e1, h1⟩ := tuple_ok junk l 0 b0 (chars "(") h h0 (by omega)
    rw [licks_test, e0, e1]
    rw [Datum.text]
    rw [sepTexts_zero] at h1 hlen
    by_cases hc : (l.allLicks && !l.isEmpty) = true
    · rw [if_pos hc, if_pos hc, if_pos hc]
      obtain ⟨b2, e2, h2⟩ := poke_ok (y := 0x5B#8) (show Holds b1 (0x28#8 :: listed l.texts) from h1)
      obtain ⟨b3, e3, h3⟩ := lit_ok junk "]" h2 (by simp [chars] at hlen ⊢; omega)
      rw [e2, e3, Option.map_some, strB_ok h3]; rfl
    · rw [if_neg hc, if_neg hc, if_neg hc]
      obtain ⟨b3, e3, h3⟩ := lit_ok junk ")" h1 (by simp [chars] at hlen ⊢; omega)
      rw [e3, Option.map_some, strB_ok h3]
  | .table l, h, hn => by
    rw [Datum.Ok] at h
    rw [string]
    obtain ⟨b0, e0, h0⟩ := byteStr2_spec junk (chars "(") (by decide)
    rw [Datum.text] at hn ⊢
    have hlen : (chars "(").length + (sepTexts 0 l.texts).length + 1 < 2^31 := by
      rw [sepTexts_zero]; simp only [List.length_append] at hn; simp [chars] at hn ⊢; omega
    obtain ⟨b1, e1, h1⟩ := table_ok junk l 0 b0 (chars "(") h h0 (by omega)
    rw [sepTexts_zero] at h1 hlen
    obtain ⟨b3, e3, h3⟩ := lit_ok junk ")" h1 (by simp [chars] at hlen ⊢; omega)
    rw [e0, e1, e3, Option.map_some, strB_ok h3]
  | .lick n i a, h, hn => by
    rw [Datum.Ok] at h
    rw [Datum.text] at hn ⊢
    simp only [List.length_append] at hn
    obtain ⟨b0, e0, h0⟩ := byteStr2_spec junk [] (by decide)
    obtain ⟨b1, e1, h1⟩ := obj_ok (s := n.text) junk h0 (by simp; omega)
    have en := string_ok junk n h.1 (by omega)
    have key : ∀ (x : Datum) (b : Buf) (t : List Byte), x.Ok → (x.isNil = false → string junk x = some x.text) → Holds b t →
        t.length + (if x.isNil then [] else chars " " ++ x.text).length < 2^31 →
        ∃ b', (if x.isNil then some b else objOut junk (lit junk (some b) " ") (string junk x)) = some b' ∧
          Holds b' (t ++ (if x.isNil then [] else chars " " ++ x.text)) := by
      intro x b t _ hx hb hl
      by_cases hnil : x.isNil = true
      · rw [if_pos hnil, if_pos hnil]
        exact ⟨b, rfl, by simpa using hb⟩
      · have hf : x.isNil = false := by simpa using hnil
        rw [if_neg hnil] at hl
        rw [if_neg hnil, if_neg hnil]
        simp only [List.length_append] at hl
        obtain ⟨b2, e2, h2⟩ := lit_ok junk " " hb (by omega)
        obtain ⟨b3, e3, h3⟩ := obj_ok (s := x.text) junk h2 (by simp only [List.length_append]; omega)
        exact ⟨b3, by rw [e2, hx hf]; exact e3, by simpa using h3⟩
    obtain ⟨b2, e2, h2⟩ := key i b1 n.text h.2.1 (fun hf => string_ok junk i h.2.1 (by
      rw [hf] at hn; simp only [Bool.false_eq_true, if_false, List.length_append] at hn; omega)) h1 (by omega)
    obtain ⟨b3, e3, h3⟩ := key a b2 _ h.2.2 (fun hf => string_ok junk a h.2.2 (by
      rw [hf] at hn; simp only [Bool.false_eq_true, if_false, List.length_append] at hn; omega)) h2 (by
        simp only [List.length_append]; omega)
    rw [string]
    rw [e0, en, e1, e2, e3, Option.map_some, strB_ok h3]
theorem tuple_ok (junk : Nat → Byte) : ∀ (l : Data) (i : Nat) (b : Buf) (t : List Byte), l.Ok → Holds b t →
    t.length + (sepTexts i l.texts).length < 2^31 → ∃ b', tupleLoop junk l i (some b) = some b' ∧ Holds b' (t ++ sepTexts i l.texts)
  | .nil, _, b, t, _, hb, _ => ⟨b, rfl, by simpa [Data.texts, sepTexts] using hb⟩
  | .cons v l, i, b, t, h, hb, hl => by
    rw [Data.Ok] at h
    rw [Data.texts, sepTexts] at hl ⊢
    simp only [List.length_append] at hl
    have e1 : ∃ b', (if i > 0 then lit junk (some b) ", " else some b) = some b' ∧ Holds b' (t ++ (if i > 0 then chars ", " else [])) := by
      by_cases hi : i > 0
      · rw [if_pos hi, if_pos hi]; rw [if_pos hi] at hl; exact lit_ok junk _ hb (by omega)
      · rw [if_neg hi, if_neg hi]; exact ⟨b, rfl, by simpa using hb⟩
    obtain ⟨b1, e1, h1⟩ := e1
    obtain ⟨b2, e2, h2⟩ := obj_ok (s := v.text) junk h1 (by simp only [List.length_append]; omega)
    obtain ⟨b3, e3, h3⟩ := tuple_ok junk l (i+1) b2 _ h.2 h2 (by simp only [List.length_append]; omega)
    refine ⟨b3, ?_, by simpa using h3⟩
    rw [tupleLoop]
    rw [e1, string_ok junk v h.1 (by omega), e2, e3]
theorem table_ok (junk : Nat → Byte) : ∀ (l : Pairs) (i : Nat) (b : Buf) (t : List Byte), l.Ok → Holds b t →
    t.length + (sepTexts i l.texts).length < 2^31 → ∃ b', tableLoop junk l i (some b) = some b' ∧ Holds b' (t ++ sepTexts i l.texts)
  | .nil, _, b, t, _, hb, _ => ⟨b, rfl, by simpa [Pairs.texts, sepTexts] using hb⟩
  | .cons k v l, i, b, t, h, hb, hl => by
    rw [Pairs.Ok] at h
    rw [Pairs.texts, sepTexts] at hl ⊢
    simp only [List.length_append] at hl
    have e1 : ∃ b', (if i > 0 then lit junk (some b) ", " else some b) = some b' ∧ Holds b' (t ++ (if i > 0 then chars ", " else [])) := by
      by_cases hi : i > 0
      · rw [if_pos hi, if_pos hi]; rw [if_pos hi] at hl; exact lit_ok junk _ hb (by omega)
      · rw [if_neg hi, if_neg hi]; exact ⟨b, rfl, by simpa using hb⟩
    obtain ⟨b1, e1, h1⟩ := e1
    obtain ⟨b2, e2, h2⟩ := obj_ok (s := k.text) junk h1 (by simp only [List.length_append]; omega)
    obtain ⟨b3, e3, h3⟩ := lit_ok junk "=" h2 (by simp only [List.length_append]; omega)
    obtain ⟨b4, e4, h4⟩ := obj_ok (s := v.text) junk h3 (by simp only [List.length_append]; omega)
    obtain ⟨b5, e5, h5⟩ := table_ok junk l (i+1) b4 _ h.2.2 h4 (by simp only [List.length_append]; omega)
    refine ⟨b5, ?_, by simpa using h5⟩
    rw [tableLoop]
    rw [e1, string_ok junk k h.1 (by omega), e2, e3, string_ok junk v h.2.1 (by omega), e4, e5]
end

end Potion.Show
