import Verif.Proof.Double
/-!
C76. The text of a floating point number (`string` of a double, and how the bytecode writes doubles): a decimal number with
at most 16 digits after the point that is within 5·10⁻¹⁷ of the number; it is read back as the same double if the number is at least one half
in magnitude. The buffer of 40 bytes suffices exactly for the numbers between −10²¹ and 10²².
-/
namespace Potion.Spec
open Potion Potion.Dbl

/-- A sign, digits, a point and digits, without superfluous zeros and with at most 16 digits after the point; and the number it writes. -/
def Shortest (t : List Byte) (q : ℚ) : Prop :=
  ∃ (neg : Bool) (i f : List Nat), i ≠ [] ∧ f ≠ [] ∧ f.length ≤ 16 ∧ (∀ d ∈ i ++ f, d < 10) ∧
    (i.head? = some 0 → i = [0]) ∧ (f.getLast? = some 0 → f = [0]) ∧
    t = sign neg ++ i.map digitChar ++ 0x2E#8 :: f.map digitChar ∧
    q = (if neg then -1 else 1) * ((numeral 10 i : ℚ) + (numeral 10 f : ℚ) / 10 ^ f.length)

theorem Shortest.isDecimal {t : List Byte} {q : ℚ} (h : Shortest t q) : IsDecimal t q := by
  obtain ⟨neg, i, f, h1, h2, _, h3, _, _, h4, h5⟩ := h
  exact ⟨neg, i, f, h1, h2, h3, h4, h5⟩

end Potion.Spec

namespace Potion.Dbl
open Potion Potion.Spec Potion.Dec

/-- The text and its error, for the theorems below. -/
theorem text_near {d : Double} {t : List Byte} (hd : Finite d) (h : dblString d = some t) :
    ∃ q, Shortest t q ∧ |q - value d| ≤ 1 / 2 / 10 ^ 16 ∧ ((∃ k : ℤ, value d * 10 ^ 16 = k) → q = value d) ∧
      ∀ k : ℤ, value d * 10 ^ 16 = k + 1 / 2 → ∃ j : ℤ, q * 10 ^ 16 = 2 * j := by
  obtain ⟨n, m, e, rfl⟩ : ∃ n m e, d = .fin n m e := by cases d <;> first | exact ⟨_, _, _, rfl⟩ | exact hd.elim
  obtain ⟨a1, a2, a3, a4⟩ := hd
  obtain ⟨f, f1, f2, f3, f4, f5, f6⟩ := dblString_fin n m e a1 a3 h
  obtain ⟨w1, w2, w3, w4, _⟩ := whole_spec m e a1 a3
  have near := scaled_near m e
  have hs : ∀ x : ℚ, |(if n then -1 else 1) * x| = |x| := by intro x; cases n <;> simp
  have hdiff : (if n then -1 else 1) * ((scaled m e : ℚ) / 10 ^ 16) - value (.fin n m e)
      = (if n then -1 else 1) * (((scaled m e : ℚ) - mag m e * 10 ^ 16) / 10 ^ 16) := by
    rw [value_fin]; cases n <;> simp <;> ring
  refine ⟨(if n then -1 else 1) * ((scaled m e : ℚ) / 10 ^ 16), ⟨n, whole m e, f, w1, f1, f4, ?_, w3, f3, f5, by rw [f6]⟩, ?_, ?_, ?_⟩
  · intro d hd
    rcases List.mem_append.1 hd with hd | hd
    · exact w2 d hd
    · exact f2 d hd
  · rw [hdiff, hs, abs_div, abs_sub_comm, abs_of_pos (by norm_num : (0 : ℚ) < 10 ^ 16)]
    exact div_le_div_of_nonneg_right near (by norm_num)
  · rintro ⟨k, hk⟩
    have hk' : ∃ j : ℤ, mag m e * 10 ^ 16 = j := by
      rw [value_fin] at hk
      cases n
      · exact ⟨k, by simpa using hk⟩
      · refine ⟨-k, ?_⟩; push_cast; rw [← hk]; simp
    obtain ⟨j, hj⟩ := hk'
    rw [hj] at near
    have h1 : |(j : ℚ) - ((scaled m e : ℤ) : ℚ)| < 1 := by
      refine lt_of_le_of_lt ?_ (by norm_num : (1 : ℚ) / 2 < 1)
      exact_mod_cast near
    have h2 : |j - (scaled m e : ℤ)| < 1 := by exact_mod_cast h1
    have h3 : j = (scaled m e : ℤ) := by rw [abs_lt] at h2; omega
    have h4 : (scaled m e : ℚ) = mag m e * 10 ^ 16 := by rw [hj, h3]; simp
    rw [h4, value_fin]
    congr 1
    field_simp
  · intro k hk
    have hj : ∃ k : ℤ, mag m e * 10 ^ 16 = k + 1 / 2 := by
      rw [value_fin] at hk
      cases n
      · exact ⟨k, by simpa using hk⟩
      · refine ⟨-k - 1, ?_⟩; push_cast; simp at hk ⊢; linarith
    obtain ⟨k, hk⟩ := hj
    obtain ⟨j, hj⟩ : ∃ j, scaled m e = 2 * j := ⟨scaled m e / 2, by have := scaled_tie hk; omega⟩
    rw [hj]
    cases n
    · exact ⟨j, by push_cast; simp⟩
    · exact ⟨-j, by push_cast; simp⟩

/-- **C76 (the text).** The text of a finite double is a decimal number without superfluous zeros, within 5·10⁻¹⁷ of the double; it is exact
if the double has no more than 16 decimals. Half way between two such numbers it is the one with the even last digit. -/
theorem C76_text {d : Double} {t : List Byte} (hd : Finite d) (h : dblString d = some t) :
    ∃ q, Shortest t q ∧ |q - value d| ≤ 5 / 10 ^ 17 ∧ ((∃ k : ℤ, value d * 10 ^ 16 = k) → q = value d) ∧
      ∀ k : ℤ, value d * 10 ^ 16 = k + 1 / 2 → ∃ j : ℤ, q * 10 ^ 16 = 2 * j := by
  obtain ⟨q, h1, h2, h3⟩ := text_near hd h
  refine ⟨q, h1, le_trans h2 (by norm_num), h3⟩

/-- Ties exist: 2⁻¹⁷ has 17 decimals. Its text ends in an even digit. -/
example : Finite (.fin false (2 ^ 52) (-69)) ∧ value (.fin false (2 ^ 52) (-69)) * 10 ^ 16 = (76293945312 : ℤ) + 1 / 2 ∧
    dblString (.fin false (2 ^ 52) (-69)) = some ("0.0000076293945312".toList.map fun c => BitVec.ofNat 8 c.toNat) := by
  refine ⟨by decide, ?_, by decide +kernel⟩
  rw [value_fin]; norm_num [mag]

/-- **C76 (the buffer).** The text fits its buffer exactly for the numbers between −10²¹ and 10²². -/
theorem C76_fits {d : Double} (hd : Finite d) : (∃ t, dblString d = some t) ↔ -10 ^ 21 < value d ∧ value d < 10 ^ 22 := by
  obtain ⟨n, m, e, rfl⟩ : ∃ n m e, d = .fin n m e := by cases d <;> first | exact ⟨_, _, _, rfl⟩ | exact hd.elim
  rw [← Option.isSome_iff_exists, fits_iff n m e hd.1 hd.2.2.1, value_fin]
  have := mag_nonneg m e
  cases n
  · simp only [Bool.false_eq_true, if_false, one_mul]
    constructor
    · intro h; exact ⟨by linarith, h⟩
    · exact fun h => h.2
  · simp only [if_true]
    constructor
    · intro h; exact ⟨by linarith, by linarith⟩
    · intro h; linarith [h.1]

/-- Texts that fit are not too large for `strtod`. -/
theorem text_small {d : Double} {t : List Byte} {q : ℚ} (hd : Finite d) (h : dblString d = some t) (hq : |q - value d| ≤ 1 / 2 / 10 ^ 16) :
    |q| < 10 ^ 300 := by
  obtain ⟨h1, h2⟩ := (C76_fits hd).1 ⟨t, h⟩
  have h3 : |value d| ≤ 10 ^ 22 := abs_le.2 ⟨by linarith, h2.le⟩
  have h4 : |q| ≤ |q - value d| + |value d| := by
    have := abs_add_le (q - value d) (value d)
    simpa using this
  have h5 : |q| ≤ 10 ^ 23 := by
    have : (1 : ℚ) / 2 / 10 ^ 16 + 10 ^ 22 ≤ 10 ^ 23 := by norm_num
    linarith
  exact lt_of_le_of_lt h5 (pow_lt_pow_right₀ (by norm_num) (by norm_num))

/-- **C76 (reading it back).** The text of a double is read as the same double, if it is at least one half in magnitude, or has
no more than 16 decimals and is not zero. -/
theorem C76_roundtrip_partial {d : Double} {t : List Byte} {read : List Byte → Double} (hr : Strtod read) (hd : Finite d)
    (h : dblString d = some t) (hx : 1 / 2 ≤ |value d| ∨ (value d ≠ 0 ∧ ∃ k : ℤ, value d * 10 ^ 16 = k))
    {rest : List Byte} (hrest : Dump.NoNumber rest) : read (t ++ rest) = d := by
  obtain ⟨q, h1, h2, h3, _⟩ := text_near hd h
  have near := hr t q rest h1.isDecimal (text_small hd h h2) hrest
  rcases hx with hx | ⟨h0, hx⟩
  · refine nearest_unique hd hx h2 ?_ near
    intro hh
    refine h3 ?_
    rcases abs_choice (value d) with hc | hc
    · exact ⟨5 * 10 ^ 15, by rw [← hc, hh]; norm_num⟩
    · refine ⟨-(5 * 10 ^ 15), ?_⟩
      have : value d = -(1 / 2) := by linarith
      rw [this]; norm_num
  · have := near.2 d hd
    rw [h3 hx, sub_self, abs_zero] at this
    have h4 := abs_nonpos_iff.1 this
    exact (value_inj hd near.1 (by linarith) h0).symm

/-- **C76 (in bytecode).** Such doubles survive being written to a bytecode file and read again (the premise of C23). -/
theorem C76_bytecode_partial {d : Double} (F : Dump.Fmt Double) (ht : ∀ x, F.text x = (dblString x).getD []) (hr : Strtod F.read)
    (hd : Finite d) (hlo : -10 ^ 21 < value d) (hhi : value d < 10 ^ 22)
    (hx : 1 / 2 ≤ |value d| ∨ (value d ≠ 0 ∧ ∃ k : ℤ, value d * 10 ^ 16 = k)) : Dump.Plain F (.dbl d) := by
  obtain ⟨t, h⟩ := (C76_fits hd).2 ⟨hlo, hhi⟩
  have e : F.text d = t := by rw [ht, h]; rfl
  refine ⟨?_, ?_⟩
  · rw [e]
    have hl : t.length ≤ 41 := by
      unfold dblString at h
      dsimp only at h
      split at h
      · cases h
      · rename_i hn
        have := Option.some.inj h
        rw [← this]
        have hs : (strip (sprintf16 d)).length ≤ (sprintf16 d).length := by
          unfold strip
          rw [List.length_reverse]
          exact le_trans (List.dropWhile_sublist _).length_le (by simp)
        split
        · rw [List.length_take]; omega
        · omega
    omega
  · intro rest hrest
    rw [e]
    exact C76_roundtrip_partial hr hd h hx hrest

/-- **C76 refuted (small numbers).** Below one half different doubles have the same text — 0.1 and the next double — so no way to read it gives
back each of them. -/
theorem C76_refuted_roundtrip (read : List Byte → Double) :
    ¬ ∀ d t, Spec.Finite d → dblString d = some t → read t = d := by
  intro h
  have h1 := h (.fin false 7205759403792794 (-56)) [0x30#8, 0x2E#8, 0x31#8] (by decide) (by decide)
  have h2 := h (.fin false 7205759403792795 (-56)) [0x30#8, 0x2E#8, 0x31#8] (by decide) (by decide)
  rw [h1] at h2
  exact absurd h2 (by decide)

/-- **C76 refuted (small numbers).** 2⁻⁶⁰ has the text of zero. -/
theorem C76_refuted_zero : Finite (.fin false (2 ^ 52) (-112)) ∧ value (.fin false (2 ^ 52) (-112)) ≠ 0 ∧
    dblString (.fin false (2 ^ 52) (-112)) = some [0x30#8, 0x2E#8, 0x30#8] := by
  refine ⟨by decide, ?_, by decide⟩
  simp [value]

/-- **C76 refuted (large numbers).** The text of 10²² (and of −10²¹) is longer than the buffer it is written to. -/
theorem C76_refuted_large :
    (value (.fin false 4768371582031250 21) = 10 ^ 22 ∧ Finite (.fin false 4768371582031250 21) ∧ dblString (.fin false 4768371582031250 21) = none) ∧
    (value (.fin true 7629394531250000 17) = -10 ^ 21 ∧ Finite (.fin true 7629394531250000 17) ∧ dblString (.fin true 7629394531250000 17) = none) := by
  refine ⟨⟨?_, by decide, by decide⟩, ⟨?_, by decide, by decide⟩⟩ <;> simp [value] <;> norm_num

/-! ### The hypotheses are met -/

/-- There is such a `strtod`: some finite double is the nearest, and how much of the bytes belongs to the number is clear. -/
example : ∃ read, Strtod read := strtod_exists

/-- π is printed with 16 decimals, and read back. -/
def pi : Double := .fin false 7074237752028440 (-51)
def piText : List Byte := [0x33, 0x2E, 0x31, 0x34, 0x31, 0x35, 0x39, 0x32, 0x36, 0x35, 0x33, 0x35, 0x38, 0x39, 0x37, 0x39, 0x33, 0x31]

theorem pi_text : dblString pi = some piText := by decide

theorem pi_half : 1 / 2 ≤ |value pi| := by
  have : value pi = 7074237752028440 / 2 ^ 51 := by simp [value, pi]; norm_num
  rw [this, abs_of_pos (by norm_num)]; norm_num

example {read : List Byte → Double} (hr : Strtod read) : read (piText ++ [0x0A#8]) = pi :=
  C76_roundtrip_partial hr (by decide) pi_text (Or.inl pi_half) (by decide)

example : dblString (.fin true (5 * 2 ^ 50) (-51)) = some [0x2D#8, 0x32#8, 0x2E#8, 0x35#8] := by decide
example : dblString (.inf true) = some [0x2D#8, 0x69#8, 0x6E#8, 0x66#8] := by decide

end Potion.Dbl
