import Verif.Spec.Mixed
import Verif.Proof.Double
import Verif.Proof.Word
/-! Numbers of both kinds, for C75. -/
namespace Potion.Mixed
open Potion Potion.Spec Potion.Dbl

/-! ### Doubles exist for small multiples of powers of two -/

theorem rep (neg : Bool) (n : Nat) (hn : n < 2 ^ 53) (k : Int) (hk : -1022 ≤ k) (hk2 : k ≤ 971) :
    ∃ d, Spec.Finite d ∧ value d = (if neg then -1 else 1) * ((n : ℚ) * 2 ^ k) := by
  rcases Nat.eq_zero_or_pos n with h0 | h0
  · subst h0
    refine ⟨.fin neg 0 (-1074), ?_, ?_⟩
    · show 0 < 2 ^ 53 ∧ _; decide
    · simp [value]
  · have h1 : 2 ^ Nat.log2 n ≤ n := Nat.log2_self_le (by omega)
    have h2 : n < 2 ^ (Nat.log2 n + 1) := Nat.lt_log2_self
    have h3 : Nat.log2 n ≤ 52 := by
      by_contra hc
      have : 2 ^ 53 ≤ 2 ^ Nat.log2 n := Nat.pow_le_pow_right (by decide) (by omega)
      omega
    generalize Nat.log2 n = j at h1 h2 h3
    have e1 : 2 ^ j * 2 ^ (52 - j) = 2 ^ 52 := by rw [← pow_add]; congr 1; omega
    have e2 : 2 ^ (j + 1) * 2 ^ (52 - j) = 2 ^ 53 := by rw [← pow_add]; congr 1; omega
    refine ⟨.fin neg (n * 2 ^ (52 - j)) (k - (52 - j : Nat)), ⟨?_, by omega, by omega, Or.inl ?_⟩, ?_⟩
    · rw [← e2]; exact Nat.mul_lt_mul_of_pos_right h2 (by positivity)
    · rw [← e1]; exact Nat.mul_le_mul_right _ h1
    · show (if neg then -1 else 1) * (((n * 2 ^ (52 - j) : Nat) : ℚ) * 2 ^ (k - (52 - j : Nat))) = _
      congr 1
      rw [zpow_sub₀ (by norm_num), zpow_natCast]
      push_cast
      field_simp

theorem rep_int (i : Int) (hi : |i| ≤ 2 ^ 53) : ∃ d, Spec.Finite d ∧ value d = i := by
  have hs : (i : ℚ) = (if decide (i < 0) then -1 else 1) * (i.natAbs : ℚ) := by
    have : (i : ℚ) = (((if decide (i < 0) then -1 else 1) * (i.natAbs : ℤ) : ℤ) : ℚ) := by
      congr 1
      by_cases h : i < 0
      · rw [if_pos (by simpa using h)]; omega
      · rw [if_neg (by simpa using h)]; omega
    rw [this]
    push_cast
    by_cases h : i < 0 <;> simp [h]
  by_cases h : i.natAbs < 2 ^ 53
  · obtain ⟨d, h1, h2⟩ := rep (decide (i < 0)) i.natAbs h 0 (by decide) (by decide)
    exact ⟨d, h1, by rw [h2, hs]; simp⟩
  · have he : i.natAbs = 2 ^ 53 := by rw [abs_le] at hi; omega
    obtain ⟨d, h1, h2⟩ := rep (decide (i < 0)) (2 ^ 52) (by decide) 1 (by decide) (by decide)
    refine ⟨d, h1, ?_⟩
    rw [h2, hs, he]
    push_cast
    norm_num

theorem nearest_exact {q : ℚ} {d z : Double} (h : Nearest q d) (hz : Spec.Finite z) (hq : value z = q) : value d = q := by
  have := h.2 z hz
  rw [hq, sub_self, abs_zero] at this
  have := abs_nonpos_iff.1 this
  linarith

theorem nearest_int {i : Int} {d : Double} (hi : |i| ≤ 2 ^ 53) (h : Nearest (i : ℚ) d) : value d = i := by
  obtain ⟨z, h1, h2⟩ := rep_int i hi
  exact nearest_exact h h1 h2

/-! ### Comparing -/

theorem units_value (n : Bool) (m : Nat) (e k : Int) (hk : k ≤ e) : (units n m e k : ℚ) * 2 ^ k = value (.fin n m e) := by
  unfold units value
  push_cast
  have : (2 : ℚ) ^ e = 2 ^ (e - k).toNat * 2 ^ k := by
    rw [← zpow_natCast, ← zpow_add₀ (by norm_num)]; congr 1; omega
  rw [this]
  cases n <;> simp <;> ring

theorem dlt_fin (n m e n' m' e') : dlt (.fin n m e) (.fin n' m' e') = decide (value (.fin n m e) < value (.fin n' m' e')) := by
  have hp : (0 : ℚ) < 2 ^ (min e e') := zpow_pos (by norm_num) _
  rw [← units_value n m e (min e e') (min_le_left _ _), ← units_value n' m' e' (min e e') (min_le_right _ _)]
  unfold dlt
  rw [decide_eq_decide, mul_lt_mul_iff_left₀ hp]
  exact Int.cast_lt.symm

theorem deq_fin (n m e n' m' e') : deq (.fin n m e) (.fin n' m' e') = decide (value (.fin n m e) = value (.fin n' m' e')) := by
  have hp : (0 : ℚ) < 2 ^ (min e e') := zpow_pos (by norm_num) _
  rw [← units_value n m e (min e e') (min_le_left _ _), ← units_value n' m' e' (min e e') (min_le_right _ _)]
  unfold deq
  rw [decide_eq_decide]
  constructor
  · intro h; rw [h]
  · intro h; exact_mod_cast mul_right_cancel₀ hp.ne' h

theorem fin_of {d : Double} (hd : Spec.Finite d) : ∃ n m e, d = .fin n m e := by
  cases d <;> first | exact ⟨_, _, _, rfl⟩ | exact hd.elim

theorem dlt_value {a b : Double} (ha : Spec.Finite a) (hb : Spec.Finite b) : dlt a b = decide (value a < value b) := by
  obtain ⟨_, _, _, rfl⟩ := fin_of ha
  obtain ⟨_, _, _, rfl⟩ := fin_of hb
  exact dlt_fin ..

theorem deq_value {a b : Double} (ha : Spec.Finite a) (hb : Spec.Finite b) : deq a b = decide (value a = value b) := by
  obtain ⟨_, _, _, rfl⟩ := fin_of ha
  obtain ⟨_, _, _, rfl⟩ := fin_of hb
  exact deq_fin ..

theorem dcmp_value {a b : Double} (ha : Spec.Finite a) (hb : Spec.Finite b) (c : COp) : dcmp c a b = holds c (value a) (value b) := by
  cases c <;> simp only [dcmp, holds, dlt_value ha hb, dlt_value hb ha, deq_value ha hb]
  · rw [← Bool.decide_or, decide_eq_decide]; exact le_iff_lt_or_eq.symm
  · rw [← Bool.decide_or, decide_eq_decide, ge_iff_le, le_iff_lt_or_eq, eq_comm (a := value b)]

/-! ### Truncating -/

theorem whole_le (m : Nat) (e : Int) : (whole m e : ℚ) ≤ mag m e ∧ mag m e < whole m e + 1 := by
  unfold whole mag
  split
  · rename_i h
    have : (2 : ℚ) ^ e = 2 ^ e.toNat := by
      conv => lhs; rw [← Int.toNat_of_nonneg h]
      exact zpow_natCast 2 _
    rw [this]; push_cast
    exact ⟨le_refl _, by linarith⟩
  · rename_i h
    have hz : (2 : ℚ) ^ e = 1 / 2 ^ (-e).toNat := by
      have : e = -(((-e).toNat : Nat) : Int) := by omega
      conv => lhs; rw [this]
      rw [zpow_neg, zpow_natCast]; simp
    rw [hz]
    generalize (-e).toNat = k
    have hp : 0 < 2 ^ k := by positivity
    have hq : (0 : ℚ) < 2 ^ k := by positivity
    have h1 : m / 2 ^ k * 2 ^ k ≤ m := Nat.div_mul_le_self m _
    have h2 : m < (m / 2 ^ k + 1) * 2 ^ k := by rw [Nat.mul_comm]; exact Nat.lt_mul_div_succ m hp
    have h1' : ((m / 2 ^ k : Nat) : ℚ) * 2 ^ k ≤ m := by exact_mod_cast h1
    have h2' : (m : ℚ) < (((m / 2 ^ k : Nat) : ℚ) + 1) * 2 ^ k := by exact_mod_cast h2
    rw [mul_one_div]
    exact ⟨(le_div_iff₀ hq).2 h1', (div_lt_iff₀ hq).2 h2'⟩

theorem whole_eq {m : Nat} {e : Int} {n : Nat} (h1 : (n : ℚ) ≤ mag m e) (h2 : mag m e < n + 1) : whole m e = n := by
  obtain ⟨h3, h4⟩ := whole_le m e
  have a : (whole m e : ℚ) < n + 1 := lt_of_le_of_lt h3 h2
  have b : (n : ℚ) < whole m e + 1 := lt_of_le_of_lt h1 h4
  have a' : whole m e < n + 1 := by exact_mod_cast a
  have b' : n < whole m e + 1 := by exact_mod_cast b
  omega

/-! ### The quotient of integers, rounded -/

/-- The rounded quotient of two integers below 2^53 does not reach the next integer. -/
theorem quotient (a b : Nat) (ha : a < 2 ^ 53) (hb : b < 2 ^ 53) (hb0 : 0 < b) {r : Double} (h : Nearest ((a : ℚ) / b) r) :
    ((a / b : Nat) : ℚ) ≤ value r ∧ value r < ((a / b : Nat) : ℚ) + 1 := by
  have hbq : (0 : ℚ) < b := by exact_mod_cast hb0
  have hle : ((a / b : Nat) : ℚ) ≤ (a : ℚ) / b := by
    rw [le_div_iff₀ hbq]; exact_mod_cast Nat.div_mul_le_self a b
  have hnlt : a / b < 2 ^ 53 := lt_of_le_of_lt (Nat.div_le_self _ _) ha
  constructor
  · by_contra hc
    have hc := not_le.1 hc
    obtain ⟨z, hz, hv⟩ := rep false (a / b) hnlt 0 (by decide) (by decide)
    have := h.2 z hz
    rw [hv] at this
    simp only [Bool.false_eq_true, if_false, zpow_zero, mul_one, one_mul] at this
    rw [abs_of_nonneg (by linarith), abs_of_nonneg (by linarith)] at this
    linarith
  · by_contra hc
    have hc := not_lt.1 hc
    -- the largest double below the next integer
    obtain ⟨j, hj1, hj2, hj3⟩ : ∃ j : Nat, (2 : ℚ) ^ j / 2 < ((a / b : Nat) : ℚ) + 1 ∧ ((a / b : Nat) : ℚ) + 1 ≤ 2 ^ j ∧
        (j = 0 ∧ a / b = 0 ∨ 1 ≤ j ∧ 2 ^ (j - 1) ≤ a / b) := by
      rcases Nat.eq_zero_or_pos (a / b) with h0 | h0
      · refine ⟨0, ?_, ?_, Or.inl ⟨rfl, h0⟩⟩ <;> rw [h0] <;> norm_num
      · have h1 : 2 ^ Nat.log2 (a / b) ≤ a / b := Nat.log2_self_le (by omega)
        have h2 : a / b < 2 ^ (Nat.log2 (a / b) + 1) := Nat.lt_log2_self
        have h1' : (2 : ℚ) ^ Nat.log2 (a / b) ≤ ((a / b : Nat) : ℚ) := by exact_mod_cast h1
        have h2' : ((a / b : Nat) : ℚ) + 1 ≤ 2 ^ (Nat.log2 (a / b) + 1) := by exact_mod_cast h2
        refine ⟨Nat.log2 (a / b) + 1, ?_, h2', Or.inr ⟨by omega, by simpa using h1⟩⟩
        rw [pow_succ]; linarith
    -- half the distance is less than the distance of the quotient
    have hgap : (a : ℚ) / b + 2 ^ j / 2 ^ 54 < ((a / b : Nat) : ℚ) + 1 := by
      have hmod : a % b + 1 ≤ b := Nat.mod_lt a hb0
      have hdm : b * (a / b) + a % b = a := Nat.div_add_mod a b
      have hq : (a : ℚ) + 1 ≤ b * (((a / b : Nat) : ℚ) + 1) := by
        have : a + 1 ≤ b * (a / b + 1) := by rw [Nat.mul_add]; omega
        exact_mod_cast this
      have hlt : (2 : ℚ) ^ j / 2 ^ 54 * b < 1 := by
        rcases hj3 with ⟨rfl, _⟩ | ⟨hj, hp⟩
        · have : (b : ℚ) < 2 ^ 53 := by exact_mod_cast hb
          rw [pow_zero, div_mul_eq_mul_div, one_mul, div_lt_one (by norm_num)]
          refine lt_trans this (by norm_num)
        · have : 2 ^ (j - 1) * b < 2 ^ 53 := by
            refine lt_of_le_of_lt (Nat.mul_le_mul_right _ hp) (lt_of_le_of_lt (Nat.div_mul_le_self a b) ha)
          have h1 : (2 : ℚ) ^ (j - 1) * b < 2 ^ 53 := by exact_mod_cast this
          have h2 : (2 : ℚ) ^ j = 2 ^ (j - 1) * 2 := by rw [← pow_succ]; congr 1; omega
          rw [h2, div_mul_eq_mul_div, div_lt_one (by norm_num)]
          have : (2 : ℚ) ^ (j - 1) * 2 * b = 2 * (2 ^ (j - 1) * b) := by ring
          rw [this]
          have : (2 : ℚ) ^ 54 = 2 * 2 ^ 53 := by norm_num
          rw [this]; linarith
      have : ((a : ℚ) / b + 2 ^ j / 2 ^ 54) * b < (((a / b : Nat) : ℚ) + 1) * b := by
        rw [add_mul, div_mul_cancel₀ _ hbq.ne']
        linarith
      exact lt_of_mul_lt_mul_right this hbq.le
    have hj53 : j ≤ 53 := by
      rcases hj3 with ⟨rfl, _⟩ | ⟨hj, hp⟩
      · omega
      · by_contra hc
        have : 2 ^ 53 ≤ 2 ^ (j - 1) := Nat.pow_le_pow_right (by decide) (by omega)
        omega
    -- n+1 - 2^j/2^53
    have hn1 : (a / b + 1) * 2 ^ (53 - j) ≤ 2 ^ 53 := by
      have h1 : a / b + 1 ≤ 2 ^ j := by exact_mod_cast hj2
      calc (a / b + 1) * 2 ^ (53 - j) ≤ 2 ^ j * 2 ^ (53 - j) := Nat.mul_le_mul_right _ h1
        _ = 2 ^ 53 := by rw [← pow_add]; congr 1; omega
    have hpos : 0 < (a / b + 1) * 2 ^ (53 - j) := by positivity
    obtain ⟨z, hz, hv⟩ := rep false ((a / b + 1) * 2 ^ (53 - j) - 1) (by omega) (-(53 - j : Nat)) (by omega) (by omega)
    have hv' : value z = ((a / b : Nat) : ℚ) + 1 - 2 ^ j / 2 ^ 53 := by
      rw [hv, Nat.cast_sub (by omega)]
      simp only [Bool.false_eq_true, if_false, one_mul]
      rw [zpow_neg, zpow_natCast]
      push_cast
      have : (2 : ℚ) ^ j / 2 ^ 53 = 1 / 2 ^ (53 - j) := by
        rw [div_eq_div_iff (by positivity) (by positivity), ← pow_add, one_mul]; congr 1; omega
      rw [this]
      field_simp
    have hmin := h.2 z hz
    rw [hv'] at hmin
    rw [abs_sub_comm ((a : ℚ) / b) (value r), abs_of_nonneg (by
      have : (0 : ℚ) < 2 ^ j / 2 ^ 54 := by positivity
      linarith)] at hmin
    have h54 : (2 : ℚ) ^ j / 2 ^ 53 = 2 * (2 ^ j / 2 ^ 54) := by
      have : (2 : ℚ) ^ 54 = 2 * 2 ^ 53 := by norm_num
      rw [this]; field_simp
    have hpos2 : (0 : ℚ) < 2 ^ j / 2 ^ 54 := by positivity
    rw [h54] at hmin
    have : |(a : ℚ) / b - (((a / b : Nat) : ℚ) + 1 - 2 * (2 ^ j / 2 ^ 54))| < value r - a / b := by
      rw [abs_lt]
      constructor <;> linarith
    linarith

end Potion.Mixed
