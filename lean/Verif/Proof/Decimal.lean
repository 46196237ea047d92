import Verif.Model.Decimal
import Verif.Spec.Decimal
import Verif.Spec.Word
import Verif.Proof.Word
import Mathlib.Tactic.Ring
/-! Helper lemmas for decimal text. -/
namespace Potion.Dec
open Potion Spec

theorem toNat_digitChar {d : Nat} (h : d < 10) : (digitChar d).toNat = 48 + d := by
  unfold digitChar; rw [BitVec.toNat_ofNat]; omega

theorem digitVal_hex {d : Nat} {c : Byte} (h : HexChar d c) : digitVal c = some d := by
  unfold digitVal HexChar at *
  simp only []
  rcases h with ⟨h1, h2⟩ | ⟨h1, h2, h3 | h3⟩
  · rw [if_pos (by omega)]; congr 1; omega
  · rw [if_neg (by omega), if_pos (by omega)]; congr 1; omega
  · rw [if_neg (by omega), if_neg (by omega), if_pos (by omega)]; congr 1; omega

theorem hexChar_digitChar {d : Nat} (h : d < 10) : HexChar d (digitChar d) := Or.inl ⟨h, toNat_digitChar h⟩

theorem hexChar_ne_minus {d : Nat} {c : Byte} (h : HexChar d c) : c ≠ 0x2D#8 ∧ c ≠ 0x2B#8 := by
  constructor <;> (rintro rfl; unfold HexChar at h; simp at h; omega)

theorem isDigit_digitChar {d : Nat} (h : d < 10) : isDigit (digitChar d) = true := by
  unfold isDigit; rw [toNat_digitChar h]; simp; omega

theorem numeral_append (B : Nat) (a b : List Nat) : numeral B (a ++ b) = numeral B a * B ^ b.length + numeral B b := by
  induction a with
  | nil => simp [numeral]
  | cons d a ih =>
    simp only [List.cons_append, numeral, ih, List.length_append]
    rw [Nat.pow_add]; ring

theorem atoiLoop_spec (B : Nat) : ∀ (ds : List Nat) (cs : List Byte) (acc : Int), List.Forall₂ HexChar ds cs →
    atoiLoop B cs acc = acc * (B : Int) ^ ds.length + numeral B ds := by
  intro ds cs acc h
  induction h generalizing acc with
  | nil => simp [atoiLoop, numeral]
  | cons h1 h2 ih =>
    rename_i d c ds cs
    unfold atoiLoop
    rw [digitVal_hex h1]
    simp only [numeral, List.length_cons]
    rw [ih]
    push_cast
    ring

theorem wrap_of_small {i : Int} (h : -(2^63) ≤ i) (h' : i < 2^63) : wrap i = i := by
  unfold wrap; simp only [Int.bmod]; omega

theorem pnNum_wrap (i : Int) : pnNum (wrap i) = pnNum i := by
  apply BitVec.eq_of_toInt_eq
  rw [pnNum_toInt, pnNum_toInt]
  unfold wrap
  simp only [Int.bmod]
  omega

theorem wrap_neg_wrap (i : Int) : wrap (- wrap i) = wrap (-i) := by
  unfold wrap; simp only [Int.bmod]; omega

theorem atoi_plain (B : Nat) {ds : List Nat} {cs : List Byte} (h : List.Forall₂ HexChar ds cs) :
    atoi cs B = wrap (numeral B ds) := by
  cases h with
  | nil => simp [atoi, numeral, wrap]
  | cons h1 h2 =>
    unfold atoi
    simp only []
    rw [if_neg (hexChar_ne_minus h1).1, atoiLoop_spec B _ _ 0 (.cons h1 h2)]
    simp

theorem atoi_minus (B : Nat) {ds : List Nat} {cs : List Byte} (h : List.Forall₂ HexChar ds cs) :
    atoi (0x2D#8 :: cs) B = wrap (-(numeral B ds : Int)) := by
  unfold atoi
  simp only []
  rw [if_pos trivial, atoiLoop_spec B _ _ 0 h]
  simp [wrap_neg_wrap]

theorem forall₂_digits {ds : List Nat} (h : ∀ d ∈ ds, d < 10) : List.Forall₂ HexChar ds (ds.map digitChar) := by
  induction ds with
  | nil => exact .nil
  | cons d ds ih => exact .cons (hexChar_digitChar (h d (by simp))) (ih (fun x hx => h x (by simp [hx])))

theorem numeral_lt {ds : List Nat} (h : ∀ d ∈ ds, d < 10) : numeral 10 ds < 10 ^ ds.length := by
  induction ds with
  | nil => simp [numeral]
  | cons d ds ih =>
    have h1 := h d (by simp)
    have h2 := ih (fun x hx => h x (by simp [hx]))
    simp only [numeral, List.length_cons]
    have : d * 10 ^ ds.length ≤ 9 * 10 ^ ds.length := Nat.mul_le_mul_right _ (by omega)
    rw [Nat.pow_succ]; omega

theorem takeWhile_digits {ds : List Nat} (h : ∀ d ∈ ds, d < 10) :
    ((ds.map digitChar).takeWhile isDigit) = ds.map digitChar := by
  induction ds with
  | nil => rfl
  | cons d ds ih =>
    rw [List.map_cons, List.takeWhile_cons, if_pos (isDigit_digitChar (h d (by simp))),
      ih (fun x hx => h x (by simp [hx]))]

/-- Decimal digits of a natural number. -/
def natDigits : (fuel : Nat) → Nat → List Nat
  | 0, _ => []
  | f+1, n => if n < 10 then [n] else natDigits f (n / 10) ++ [n % 10]

theorem natText_eq : ∀ (fuel n : Nat), natText fuel n = (natDigits fuel n).map digitChar
  | 0, _ => rfl
  | f+1, n => by
    unfold natText natDigits
    by_cases h : n < 10
    · rw [if_pos h, if_pos h]; rfl
    · rw [if_neg h, if_neg h, natText_eq f, List.map_append]; rfl

theorem natDigits_spec : ∀ (fuel n : Nat), n < 10 ^ fuel → 0 < fuel →
    (∀ d ∈ natDigits fuel n, d < 10) ∧ numeral 10 (natDigits fuel n) = n ∧ (natDigits fuel n).length ≤ fuel ∧
    natDigits fuel n ≠ [] ∧ (0 < n → (natDigits fuel n).head? ≠ some 0) ∧ (n = 0 → natDigits fuel n = [0]) ∧
    (∀ k, 0 < k → n < 10 ^ k → (natDigits fuel n).length ≤ k)
  | 0, _, _, h => by omega
  | f+1, n, hn, _ => by
    unfold natDigits
    by_cases h : n < 10
    · rw [if_pos h]
      refine ⟨by simp; omega, by simp [numeral], by simp, by simp, by simp; omega, by simp, by simp; intros; omega⟩
    · rw [if_neg h]
      have hf : 0 < f := by
        rcases f with _ | f
        · simp at hn; omega
        · omega
      have hlt : n / 10 < 10 ^ f := by rw [Nat.pow_succ] at hn; omega
      obtain ⟨h1, h2, h3, h4, h5, h6, h7⟩ := natDigits_spec f (n / 10) hlt hf
      refine ⟨?_, ?_, ?_, by simp, ?_, by omega, ?_⟩
      · intro d hd
        rcases List.mem_append.1 hd with hd | hd
        · exact h1 d hd
        · simp at hd; omega
      · rw [numeral_append, h2]; simp [numeral]; omega
      · simp; omega
      · intro _
        have := h5 (by omega)
        rcases hx : natDigits f (n / 10) with _ | ⟨a, b⟩
        · exact absurd hx h4
        · rw [hx] at this; simpa using this
      · intro k hk hnk
        rcases k with _ | _ | k
        · omega
        · simp at hnk; omega
        · have := h7 (k+1) (by omega) (by rw [Nat.pow_succ] at hnk; omega)
          simp; omega

end Potion.Dec
