import Verif.Model.KhashLayout
import Mathlib.Tactic.Ring
import Mathlib.Tactic.Linarith
namespace Potion.Layout

theorem bit_ne (w : BitVec 32) (s k : Nat) : (((w >>> s) &&& BitVec.twoPow 32 k) != 0#32) = (decide (k < 32) && w.getLsbD (s + k)) := by
  rw [Bool.eq_iff_iff]
  simp only [bne_iff_ne, ne_eq, Bool.and_eq_true, decide_eq_true_eq]
  constructor
  · intro h
    by_contra hc
    apply h
    apply BitVec.eq_of_getLsbD_eq
    intro i hi
    simp only [BitVec.getLsbD_and, BitVec.getLsbD_ushiftRight, BitVec.getLsbD_twoPow, BitVec.getLsbD_zero]
    by_cases hik : k = i
    · subst hik; simp at hc; simp [hc hi]
    · simp [hik]
  · rintro ⟨hk, hb⟩ h
    have := congrArg (fun v => v.getLsbD k) h
    simp [BitVec.getLsbD_twoPow, hk, hb] at this

theorem sh_lt (i : Nat) : sh i ≤ 30 := by unfold sh; omega

theorem isEmpty_eq (f : Flags) (i : Nat) : isEmpty f i = (f (i/16)).getLsbD (sh i + 1) := by
  have h : (2#32) = BitVec.twoPow 32 1 := by decide
  rw [isEmpty, h, bit_ne]; simp

theorem isDel_eq (f : Flags) (i : Nat) : isDel f i = (f (i/16)).getLsbD (sh i) := by
  have h : (1#32) = BitVec.twoPow 32 0 := by decide
  rw [isDel, h, bit_ne]; simp

theorem isEither_eq (f : Flags) (i : Nat) : isEither f i = (isEmpty f i || isDel f i) := by
  have h : (3#32) = 2#32 ||| 1#32 := by decide
  rw [isEither, isEmpty, isDel, h, BitVec.and_or_distrib_left]
  rw [Bool.eq_iff_iff]
  simp only [bne_iff_ne, ne_eq, Bool.or_eq_true]
  rw [BitVec.or_eq_zero_iff]
  exact not_and_or

theorem bit1 (s j : Nat) : (1#32 <<< s).getLsbD j = (decide (j < 32) && decide (j = s)) := by
  have h : (1#32) = BitVec.twoPow 32 0 := by decide
  rw [h, BitVec.getLsbD_shiftLeft, BitVec.getLsbD_twoPow]
  rw [Bool.eq_iff_iff]
  simp only [Bool.and_eq_true, Bool.not_eq_true', decide_eq_true_eq, decide_eq_false_iff_not]
  omega

theorem bit2 (s j : Nat) : (2#32 <<< s).getLsbD j = (decide (j < 32) && decide (j = s+1)) := by
  have h : (2#32) = BitVec.twoPow 32 1 := by decide
  rw [h, BitVec.getLsbD_shiftLeft, BitVec.getLsbD_twoPow]
  rw [Bool.eq_iff_iff]
  simp only [Bool.and_eq_true, Bool.not_eq_true', decide_eq_true_eq, decide_eq_false_iff_not]
  omega

theorem bits3 (s j : Nat) : (3#32 <<< s).getLsbD j = (decide (j < 32) && (decide (j = s) || decide (j = s+1))) := by
  have h : (3#32) = 1#32 ||| 2#32 := by decide
  rw [h, BitVec.shiftLeft_or_distrib, BitVec.getLsbD_or, bit1, bit2, Bool.and_or_distrib_left]

/-- Two buckets served by the same word use different bits. -/
theorem sh_ne {i j : Nat} (hw : i / 16 = j / 16) (hne : i ≠ j) : sh i ≠ sh j ∧ sh i ≠ sh j + 1 ∧ sh i + 1 ≠ sh j := by
  unfold sh; omega

theorem setBoth_spec (f : Flags) (i j : Nat) :
    isEmpty (setBothFalse f i) j = (if j = i then false else isEmpty f j) ∧
    isDel (setBothFalse f i) j = (if j = i then false else isDel f j) := by
  rw [isEmpty_eq, isDel_eq, isEmpty_eq, isDel_eq]
  have h30 := sh_lt j
  unfold setBothFalse
  by_cases hji : j = i
  · subst hji; simp
  · by_cases hw : j / 16 = i / 16
    · have := sh_ne hw hji
      rw [if_pos hw]
      simp only [BitVec.getLsbD_and, BitVec.getLsbD_not, bits3, if_neg hji]
      rw [decide_eq_false this.1, decide_eq_false this.2.1, decide_eq_false this.2.2]
      have : ¬ (sh j + 1 = sh i + 1) := by omega
      simp [this]
      constructor <;> omega
    · simp [hw, hji]

theorem setEmptyFalse_spec (f : Flags) (i j : Nat) :
    isEmpty (setEmptyFalse f i) j = (if j = i then false else isEmpty f j) ∧
    isDel (setEmptyFalse f i) j = isDel f j := by
  rw [isEmpty_eq, isDel_eq, isEmpty_eq, isDel_eq]
  have h30 := sh_lt j
  unfold setEmptyFalse
  by_cases hji : j = i
  · subst hji; simp [bit2]; omega
  · by_cases hw : j / 16 = i / 16
    · have := sh_ne hw hji
      rw [if_pos hw]
      simp only [BitVec.getLsbD_and, BitVec.getLsbD_not, bit2, if_neg hji]
      rw [decide_eq_false this.2.1]
      have : ¬ (sh j + 1 = sh i + 1) := by omega
      simp [this]
      constructor <;> omega
    · simp [hw, hji]

theorem setDelTrue_spec (f : Flags) (i j : Nat) :
    isEmpty (setDelTrue f i) j = isEmpty f j ∧
    isDel (setDelTrue f i) j = (if j = i then true else isDel f j) := by
  rw [isEmpty_eq, isDel_eq, isEmpty_eq, isDel_eq]
  have h30 := sh_lt j
  unfold setDelTrue
  by_cases hji : j = i
  · subst hji; simp [bit1]; omega
  · by_cases hw : j / 16 = i / 16
    · have := sh_ne hw hji
      rw [if_pos hw]
      simp only [BitVec.getLsbD_or, bit1, if_neg hji]
      rw [decide_eq_false this.1, decide_eq_false this.2.2]
      simp
    · simp [hw, hji]

theorem allEmpty_spec (i : Nat) : isEmpty allEmpty i = true ∧ isDel allEmpty i = false := by
  have h : ∀ r : Fin 16, isEmpty allEmpty r = true ∧ isDel allEmpty r = false := by decide
  have := h ⟨i % 16, Nat.mod_lt _ (by omega)⟩
  simp only [isEmpty, isDel, allEmpty, sh, Nat.mod_mod] at this ⊢
  exact this

end Potion.Layout
