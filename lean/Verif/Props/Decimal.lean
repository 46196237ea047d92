import Verif.Proof.Decimal
/-! # C21: decimal and hexadecimal text -/
namespace Potion.Props
open Potion Spec Dec

theorem wrapsTo_pnInt (i : Int) : WrapsTo i (pnInt (pnNum i)) := by
  rw [pnInt_pnNum]
  refine ⟨?_, ?_⟩
  · unfold InRange; simp only [Int.bmod]; omega
  · simp only [Int.bmod]; omega

/-- C21 literals: a decimal literal (any number of digits, with or without `-`) and a hexadecimal literal denote the
number they write, wrapped modulo 2^63. -/
theorem C21_literal_modulo (ds : List Nat) (hd : ∀ d ∈ ds, d < 10) (hs : List Nat) (cs : List (BitVec 8))
    (hh : List.Forall₂ HexChar hs cs) :
    (∃ i, Denotes (decLiteral (ds.map digitChar)) i ∧ WrapsTo (numeral 10 ds) i) ∧
    (∃ i, Denotes (decLiteral (0x2D#8 :: ds.map digitChar)) i ∧ WrapsTo (-(numeral 10 ds : Int)) i) ∧
    (∃ i, Denotes (hexLiteral cs) i ∧ WrapsTo (numeral 16 hs) i) := by
  have den : ∀ i : Int, Denotes (pnNum i) (pnInt (pnNum i)) := fun i => toInt_of_isInt (isInt_pnNum i)
  refine ⟨⟨_, ?_, wrapsTo_pnInt _⟩, ⟨_, ?_, wrapsTo_pnInt _⟩, ⟨_, ?_, wrapsTo_pnInt _⟩⟩
  · unfold decLiteral; rw [atoi_plain 10 (forall₂_digits hd), pnNum_wrap]; exact den _
  · unfold decLiteral; rw [atoi_minus 10 (forall₂_digits hd), pnNum_wrap]; exact den _
  · unfold hexLiteral; rw [atoi_plain 16 hh, pnNum_wrap]; exact den _

/-- C21 literals: exact when the number is a Potion integer. -/
theorem C21_literal (ds : List Nat) (hd : ∀ d ∈ ds, d < 10) (hs : List Nat) (cs : List (BitVec 8))
    (hh : List.Forall₂ HexChar hs cs) :
    (numeral 10 ds < 2^62 → Denotes (decLiteral (ds.map digitChar)) (numeral 10 ds)) ∧
    (numeral 10 ds ≤ 2^62 → Denotes (decLiteral (0x2D#8 :: ds.map digitChar)) (-(numeral 10 ds : Int))) ∧
    (numeral 16 hs < 2^62 → Denotes (hexLiteral cs) (numeral 16 hs)) := by
  have key : ∀ (w : PN) (i n : Int), InRange n → Denotes w i → WrapsTo n i → Denotes w n := by
    intro w i n hn h1 ⟨h2, h3⟩
    have : i = n := by unfold InRange at *; omega
    rw [← this]; exact h1
  obtain ⟨⟨i, a, b⟩, ⟨j, c, d⟩, ⟨k, e, f⟩⟩ := C21_literal_modulo ds hd hs cs hh
  refine ⟨fun h => key _ _ _ ⟨by omega, by omega⟩ a b, fun h => key _ _ _ ⟨by omega, by omega⟩ c d,
    fun h => key _ _ _ ⟨by omega, by omega⟩ e f⟩

/-- C21 `number`: an optional sign and at most nine digits (leading zeros allowed) give the integer they write. -/
theorem C21_number (ds : List Nat) (hd : ∀ d ∈ ds, d < 10) (hl : ds.length ≤ 9) :
    strNumber (ds.map digitChar) = .int (pnNum (numeral 10 ds)) ∧
    strNumber (0x2D#8 :: ds.map digitChar) = .int (pnNum (-(numeral 10 ds : Int))) ∧
    strNumber (0x2B#8 :: ds.map digitChar) = .int (pnNum (numeral 10 ds)) := by
  have hlt := numeral_lt hd
  have hp : 10 ^ ds.length ≤ 10 ^ 9 := Nat.pow_le_pow_right (by omega) hl
  have small : numeral 10 ds < 10 ^ 9 := by omega
  have at1 : atoi (ds.map digitChar) 10 = numeral 10 ds := by
    rw [atoi_plain 10 (forall₂_digits hd), wrap_of_small (by omega) (by omega)]
  have tw := takeWhile_digits hd
  refine ⟨?_, ?_, ?_⟩
  · rcases ds with _ | ⟨d, ds⟩
    · rfl
    · have hne := hexChar_ne_minus (hexChar_digitChar (hd d (by simp)))
      unfold strNumber
      rw [List.map_cons] at tw at1 ⊢
      simp only [if_neg hne.1, if_neg (show ¬ (digitChar d = 0x2D#8 ∨ digitChar d = 0x2B#8) from fun h => h.elim hne.1 hne.2)]
      rw [tw, if_pos ⟨by simp at hl ⊢; omega, rfl⟩, at1]
      simp only [Int.one_mul]
      rw [pnNum_wrap]
  · unfold strNumber
    simp only [true_or, if_true]
    rw [tw, if_pos ⟨by simp; omega, rfl⟩, at1, pnNum_wrap]
    congr 2; omega
  · unfold strNumber
    have : ¬ ((0x2B#8 : BitVec 8) = 0x2D#8) := by decide
    simp only [or_true, if_true, if_neg this]
    rw [tw, if_pos ⟨by simp; omega, rfl⟩, at1, pnNum_wrap]
    congr 2; omega

/-- C21 `string`: for every Potion integer, an optional `-` and the digits of its absolute value without a leading zero
(a single `0` for zero). -/
theorem C21_string (i : Int) (hi : InRange i) :
    ∃ ds : List Nat, (∀ d ∈ ds, d < 10) ∧ numeral 10 ds = i.natAbs ∧ (i ≠ 0 → ds.head? ≠ some 0) ∧ (i = 0 → ds = [0]) ∧
      ds ≠ [] ∧ numString (pnNum i) = (if i < 0 then [0x2D#8] else []) ++ ds.map digitChar := by
  obtain ⟨h1, h2, _, h4, h5, h6, _⟩ := natDigits_spec 20 i.natAbs (by unfold InRange at hi; omega) (by omega)
  refine ⟨natDigits 20 i.natAbs, h1, h2, fun h => h5 (by omega), fun h => h6 (by omega), h4, ?_⟩
  unfold numString intText
  rw [pnInt_pnNum_of_fits (by unfold Fits63; unfold InRange at hi; omega), natText_eq]
  by_cases h : i < 0
  · rw [if_pos h, if_pos h]; rfl
  · rw [if_neg h, if_neg h]; rfl

/-- C21 round trip: `n string number == n` for every integer of at most nine digits. -/
theorem C21_roundtrip (i : Int) (hi : i.natAbs < 10^9) : strNumber (numString (pnNum i)) = .int (pnNum i) := by
  have hr : InRange i := ⟨by omega, by omega⟩
  obtain ⟨h1, h2, _, _, _, _, h7⟩ := natDigits_spec 20 i.natAbs (by omega) (by omega)
  obtain ⟨a, b, _⟩ := C21_number _ h1 (h7 9 (by omega) hi)
  unfold numString intText
  rw [pnInt_pnNum_of_fits (by unfold Fits63; unfold InRange at hr; omega), natText_eq]
  by_cases h : i < 0
  · rw [if_pos h, b, h2]; congr 2; omega
  · rw [if_neg h, a, h2]; congr 2; omega

/-- C21: every integer printed by `string` and read back as a source literal is itself; in particular distinct integers
have distinct texts. -/
theorem C21_literal_roundtrip (i : Int) (hi : InRange i) : decLiteral (numString (pnNum i)) = pnNum i := by
  obtain ⟨ds, h1, h2, _, _, _, h6⟩ := C21_string i hi
  rw [h6]
  unfold decLiteral
  by_cases h : i < 0
  · rw [if_pos h, List.singleton_append, atoi_minus 10 (forall₂_digits h1), pnNum_wrap, h2]; congr 1; omega
  · rw [if_neg h, List.nil_append, atoi_plain 10 (forall₂_digits h1), pnNum_wrap, h2]; congr 1; omega

/-- C21 (limit of the round trip): the text of an integer with ten or more digits is read back as a double. -/
theorem C21_ten_digits_refuted :
    numString (pnNum 1000000000) = [0x31,0x30,0x30,0x30,0x30,0x30,0x30,0x30,0x30,0x30] ∧
    strNumber (numString (pnNum 1000000000)) = .dbl [0x31,0x30,0x30,0x30,0x30,0x30,0x30,0x30,0x30,0x30] := by
  decide +kernel

example : (∀ d ∈ [0,0,4,2], d < 10) ∧ numeral 10 [0,0,4,2] = 42 ∧ List.Forall₂ HexChar [15, 10] [0x46#8, 0x61#8] := by
  refine ⟨by decide, by decide, .cons ?_ (.cons ?_ .nil)⟩
  · right; decide
  · right; decide

end Potion.Props
