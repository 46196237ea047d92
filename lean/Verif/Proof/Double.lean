import Verif.Spec.Double
import Verif.Proof.Decimal
import Mathlib.Tactic.Ring
import Mathlib.Tactic.Positivity
import Mathlib.Data.List.Induction
import Mathlib.Data.Set.Finite.Lattice
import Mathlib.Data.Finite.Prod
import Mathlib.Data.Set.Finite.Range
import Mathlib.Data.Set.Finite.Lemmas
import Mathlib.Tactic.FieldSimp
/-! The text of a double, for C76. -/
namespace Potion.Dbl
open Potion Potion.Spec Potion.Dec

/-! ### Rounding -/

theorem roundDiv_near (n d : Nat) (hd : 0 < d) : |(n : ℚ) / d - (roundDiv n d : ℚ)| ≤ 1 / 2 := by
  have hdq : (0 : ℚ) < d := by exact_mod_cast hd
  have hn : (n : ℚ) = d * (n / d : Nat) + (n % d : Nat) := by exact_mod_cast (Nat.div_add_mod n d).symm
  have hm : n % d < d := Nat.mod_lt _ hd
  have e : (n : ℚ) / d = (n / d : Nat) + ((n % d : Nat) : ℚ) / d := by
    rw [hn]; field_simp
  rw [e]
  unfold roundDiv
  have h0 : (0 : ℚ) ≤ ((n % d : Nat) : ℚ) / d := by positivity
  split
  · rename_i h
    have h2 : (d : ℚ) ≤ 2 * (n % d : Nat) := by
      have : d ≤ 2 * (n % d) := by omega
      exact_mod_cast this
    have h3 : (1 : ℚ) / 2 ≤ ((n % d : Nat) : ℚ) / d := by rw [div_le_div_iff₀ (by norm_num) hdq]; linarith
    have h4 : ((n % d : Nat) : ℚ) / d ≤ 1 := by
      rw [div_le_one hdq]; exact_mod_cast hm.le
    push_cast
    rw [abs_le]; constructor <;> linarith
  · rename_i h
    have h2 : 2 * ((n % d : Nat) : ℚ) ≤ d := by
      have : 2 * (n % d) ≤ d := by omega
      exact_mod_cast this
    have h3 : ((n % d : Nat) : ℚ) / d ≤ 1 / 2 := by rw [div_le_div_iff₀ hdq (by norm_num)]; linarith
    rw [abs_le]; constructor <;> linarith

/-- The magnitude of a finite double. -/
def mag (m : Nat) (e : Int) : ℚ := (m : ℚ) * 2 ^ e

theorem mag_nonneg (m : Nat) (e : Int) : 0 ≤ mag m e := by unfold mag; exact mul_nonneg (Nat.cast_nonneg m) (zpow_nonneg (by norm_num) e)

theorem value_fin (neg : Bool) (m : Nat) (e : Int) : value (.fin neg m e) = (if neg then -1 else 1) * mag m e := rfl

theorem scaled_near (m : Nat) (e : Int) : |mag m e * 10 ^ 16 - (scaled m e : ℚ)| ≤ 1 / 2 := by
  unfold scaled mag
  split
  · rename_i h
    have : (2 : ℚ) ^ e = 2 ^ e.toNat := by
      conv => lhs; rw [← Int.toNat_of_nonneg h]
      exact zpow_natCast 2 _
    rw [this]
    push_cast
    norm_num
  · rename_i h
    have hz : (2 : ℚ) ^ e = 1 / 2 ^ (-e).toNat := by
      have : e = -(((-e).toNat : Nat) : Int) := by omega
      conv => lhs; rw [this]
      rw [zpow_neg, zpow_natCast]; simp
    have := roundDiv_near (m * 10 ^ 16) (2 ^ (-e).toNat) (by positivity)
    rw [hz]
    push_cast at this
    have e2 : (m : ℚ) * (1 / 2 ^ (-e).toNat) * 10 ^ 16 = (m : ℚ) * 10 ^ 16 / 2 ^ (-e).toNat := by ring
    rw [e2]
    exact this

theorem roundDiv_tie {n d k : Nat} (hd : 0 < d) (h : 2 * n = d * (2 * k + 1)) : roundDiv n d % 2 = 0 := by
  have hn := Nat.div_add_mod n d
  have hm : n % d < d := Nat.mod_lt _ hd
  have hk : n / d = k := by
    refine Nat.div_eq_of_lt_le ?_ ?_
    · nlinarith
    · nlinarith
  rw [hk] at hn
  have hr : 2 * (n % d) = d := by nlinarith
  unfold roundDiv
  rw [hk]
  split <;> omega

theorem scaled_tie {m : Nat} {e : Int} {k : ℤ} (h : mag m e * 10 ^ 16 = k + 1 / 2) : scaled m e % 2 = 0 := by
  unfold mag at h
  unfold scaled
  split
  · rename_i he
    exfalso
    have : (2 : ℚ) ^ e = 2 ^ e.toNat := by
      conv => lhs; rw [← Int.toNat_of_nonneg he]
      exact zpow_natCast 2 _
    rw [this] at h
    have h2 : (2 * (m * 2 ^ e.toNat * 10 ^ 16) : ℤ) = 2 * k + 1 := by
      have : (2 * (m * 2 ^ e.toNat * 10 ^ 16) : ℚ) = 2 * k + 1 := by rw [h]; ring
      exact_mod_cast this
    omega
  · rename_i he
    have hz : (2 : ℚ) ^ e = 1 / 2 ^ (-e).toNat := by
      have : e = -(((-e).toNat : Nat) : Int) := by omega
      conv => lhs; rw [this]
      rw [zpow_neg, zpow_natCast]; simp
    rw [hz] at h
    have hp : (0 : ℚ) < 2 ^ (-e).toNat := by positivity
    have h2 : (2 * (m * 10 ^ 16) : ℚ) = 2 ^ (-e).toNat * (2 * k + 1) := by
      field_simp at h
      linarith
    have h3 : (2 * (m * 10 ^ 16) : ℤ) = 2 ^ (-e).toNat * (2 * k + 1) := by exact_mod_cast h2
    have hk : 0 ≤ k := by
      have : (0 : ℤ) ≤ 2 ^ (-e).toNat * (2 * k + 1) := by rw [← h3]; positivity
      have := nonneg_of_mul_nonneg_right this (by positivity)
      omega
    obtain ⟨k, rfl⟩ := Int.eq_ofNat_of_zero_le hk
    refine roundDiv_tie (k := k) (by positivity) ?_
    exact_mod_cast h3

/-! ### Digits -/

/-- `k` digits of a number, with leading zeros. -/
def padDigits : (k : Nat) → Nat → List Nat
  | 0, _ => []
  | k+1, n => padDigits k (n / 10) ++ [n % 10]

theorem pad_eq : ∀ k n, pad k n = (padDigits k n).map digitChar
  | 0, _ => rfl
  | k+1, n => by unfold pad padDigits; rw [pad_eq k, List.map_append]; rfl

theorem padDigits_length : ∀ k n, (padDigits k n).length = k
  | 0, _ => rfl
  | k+1, n => by unfold padDigits; simp [padDigits_length k]

theorem padDigits_lt : ∀ k n, ∀ d ∈ padDigits k n, d < 10
  | 0, _ => by simp [padDigits]
  | k+1, n => by
    intro d hd
    unfold padDigits at hd
    rcases List.mem_append.1 hd with h | h
    · exact padDigits_lt k _ d h
    · simp at h; omega

theorem padDigits_numeral : ∀ k n, n < 10 ^ k → numeral 10 (padDigits k n) = n
  | 0, n, h => by simp at h; simp [padDigits, numeral, h]
  | k+1, n, h => by
    unfold padDigits
    rw [numeral_append, padDigits_numeral k _ (by rw [Nat.pow_succ] at h; omega)]
    simp [numeral]; omega

/-- The digits without the zeros at the end. -/
theorem digits_split : ∀ ps : List Nat, ∃ qs k, ps = qs ++ List.replicate k 0 ∧ qs.getLast? ≠ some 0 := by
  intro ps
  induction ps using List.reverseRecOn with
  | nil => exact ⟨[], 0, rfl, by simp⟩
  | append_singleton ps p ih =>
    by_cases h : p = 0
    · obtain ⟨qs, k, h1, h2⟩ := ih
      exact ⟨qs, k + 1, by rw [h1, h, List.replicate_succ']; simp, h2⟩
    · exact ⟨ps ++ [p], 0, by simp, by simpa using h⟩

theorem numeral_zeros (k : Nat) : numeral 10 (List.replicate k 0) = 0 := by
  induction k with
  | zero => rfl
  | succ k ih => simp [List.replicate_succ, numeral, ih]

theorem digitChar_zero {d : Nat} (h : d < 10) : digitChar d = 0x30#8 ↔ d = 0 := by
  constructor
  · intro e
    have := congrArg BitVec.toNat e
    rw [toNat_digitChar h] at this
    have : 48 + d = 48 := this
    omega
  · rintro rfl; rfl

theorem strip_append (t : List Byte) (k : Nat) (h : t.getLast? ≠ some 0x30#8) : strip (t ++ List.replicate k 0x30#8) = t := by
  unfold strip
  rw [List.reverse_append, List.reverse_replicate]
  have e1 : (List.replicate k 0x30#8 ++ t.reverse).dropWhile (· = 0x30#8) = t.reverse.dropWhile (· = 0x30#8) := by
    rw [List.dropWhile_append_of_pos]
    intro x hx
    simp [List.eq_of_mem_replicate hx]
  rw [e1]
  have e2 : t.reverse.dropWhile (· = 0x30#8) = t.reverse := by
    cases ht : t.reverse with
    | nil => rfl
    | cons a l =>
      have : t.getLast? = some a := by rw [List.getLast?_eq_head?_reverse, ht]; rfl
      rw [List.dropWhile_cons, if_neg]
      intro he
      exact h (by rw [this]; simpa using he)
  rw [e2, List.reverse_reverse]

/-- What is left of a decimal text after its zeros at the end have been dropped. -/
theorem trim (pre : List Byte) (ps : List Nat) (hps : ∀ d ∈ ps, d < 10) (hne : ps ≠ []) :
    let t := pre ++ 0x2E#8 :: ps.map digitChar
    ∃ f : List Nat, f ≠ [] ∧ (∀ d ∈ f, d < 10) ∧ (f.getLast? = some 0 → f = [0]) ∧ f.length ≤ ps.length ∧
      (if (strip t).getLast? = some 0x2E#8 then t.take ((strip t).length + 1) else strip t) = pre ++ 0x2E#8 :: f.map digitChar ∧
      (numeral 10 f : ℚ) / 10 ^ f.length = (numeral 10 ps : ℚ) / 10 ^ ps.length := by
  intro t
  obtain ⟨qs, k, h1, h2⟩ := digits_split ps
  have hd : ∀ d ∈ qs, d < 10 := fun d h => hps d (by rw [h1]; exact List.mem_append_left _ h)
  have ht : t = (pre ++ 0x2E#8 :: qs.map digitChar) ++ List.replicate k 0x30#8 := by
    show pre ++ 0x2E#8 :: ps.map digitChar = _
    rw [h1, List.map_append, List.map_replicate]
    simp [digitChar]
  have hl : (pre ++ 0x2E#8 :: qs.map digitChar).getLast? ≠ some 0x30#8 := by
    rw [List.getLast?_append_of_ne_nil _ (List.cons_ne_nil _ _)]
    cases hq : qs.getLast? with
    | none =>
      have : qs = [] := List.getLast?_eq_none_iff.1 hq
      subst this; simp
    | some q =>
      have hne' : qs ≠ [] := by intro h; rw [h] at hq; cases hq
      have hmem : q ∈ qs := List.mem_of_getLast? hq
      rw [List.getLast?_cons, List.getLast?_map, hq]
      simp only [Option.map_some, Option.getD_some, ne_eq, Option.some.injEq]
      rw [digitChar_zero (hd q hmem)]
      intro h0; exact h2 (by rw [hq, h0])
  have hs : strip t = pre ++ 0x2E#8 :: qs.map digitChar := by rw [ht]; exact strip_append _ k hl
  rw [hs]
  have hnum : (numeral 10 ps : ℚ) / 10 ^ ps.length = (numeral 10 qs : ℚ) / 10 ^ qs.length := by
    have h3 : numeral 10 ps = numeral 10 qs * 10 ^ k := by rw [h1, numeral_append, numeral_zeros]; simp
    have h4 : ps.length = qs.length + k := by rw [h1]; simp
    rw [h3, h4, pow_add]
    push_cast
    field_simp
  cases hq : qs with
  | nil =>
    have hk : 1 ≤ k := by
      rcases k with _ | k
      · subst hq; exact absurd h1 (by simpa using hne)
      · omega
    refine ⟨[0], by simp, by simp, by simp, ?_, ?_, ?_⟩
    · rw [h1]; simp; omega
    · have ht' : t = pre ++ 0x2E#8 :: [] ++ List.replicate k 0x30#8 := by rw [ht, hq]; rfl
      simp only [List.map_nil]
      rw [if_pos (by simp), ht']
      obtain ⟨k, rfl⟩ : ∃ j, k = j + 1 := ⟨k - 1, by omega⟩
      rw [List.replicate_succ]
      have e1 : pre ++ [0x2E#8] ++ 0x30#8 :: List.replicate k 0x30#8 = (pre ++ [0x2E#8, 0x30#8]) ++ List.replicate k 0x30#8 := by simp
      have e2 : (pre ++ [0x2E#8]).length + 1 = (pre ++ [0x2E#8, 0x30#8]).length := by simp
      rw [e1, e2, List.take_left]
      rfl
    · rw [hnum, hq]; simp [numeral]
  | cons a l =>
    rw [← hq]
    refine ⟨qs, by simp [hq], hd, fun h => absurd h h2, by rw [h1]; simp, ?_, hnum.symm⟩
    rw [if_neg]
    rw [List.getLast?_append_of_ne_nil _ (List.cons_ne_nil _ _), List.getLast?_cons, List.getLast?_map]
    cases hq' : qs.getLast? with
    | none => rw [List.getLast?_eq_none_iff.1 hq'] at hq; cases hq
    | some q =>
      have := hd q (List.mem_of_getLast? hq')
      simp only [Option.map_some, Option.getD_some, Option.some.injEq]
      intro e
      have := congrArg BitVec.toNat e
      rw [toNat_digitChar (by assumption)] at this
      have : 48 + q = 46 := this
      omega

/-! ### The text as a number -/

set_option exponentiation.threshold 2000 in
theorem mag_lt (m : Nat) (e : Int) (hm : m < 2 ^ 53) (he : e ≤ 971) : mag m e < 10 ^ 309 := by
  have h1 : (m : ℚ) ≤ 2 ^ 53 := by exact_mod_cast hm.le
  have h2 : (2 : ℚ) ^ e ≤ 2 ^ (971 : ℤ) := zpow_le_zpow_right₀ (by norm_num) he
  have h3 : mag m e ≤ 2 ^ 53 * 2 ^ (971 : ℤ) := mul_le_mul h1 h2 (zpow_nonneg (by norm_num) e) (by norm_num)
  refine lt_of_le_of_lt h3 ?_
  norm_num

set_option exponentiation.threshold 2000 in
theorem scaled_lt (m : Nat) (e : Int) (hm : m < 2 ^ 53) (he : e ≤ 971) : scaled m e / 10 ^ 16 < 10 ^ 400 := by
  have h := (abs_le.1 (scaled_near m e)).1
  have h2 := mag_lt m e hm he
  have h3 : (scaled m e : ℚ) < 10 ^ 309 * 10 ^ 16 + 1 := by linarith
  have h4 : scaled m e < 10 ^ 309 * 10 ^ 16 + 1 := by exact_mod_cast h3
  have h5 : (10 : ℕ) ^ 309 * 10 ^ 16 + 1 ≤ 10 ^ 400 * 10 ^ 16 := by norm_num
  exact Nat.div_lt_of_lt_mul (by rw [Nat.mul_comm]; exact lt_of_lt_of_le h4 h5)

/-- The digits before the point. -/
def whole (m : Nat) (e : Int) : List Nat := natDigits 400 (scaled m e / 10 ^ 16)

theorem whole_spec (m : Nat) (e : Int) (hm : m < 2 ^ 53) (he : e ≤ 971) :
    whole m e ≠ [] ∧ (∀ d ∈ whole m e, d < 10) ∧ ((whole m e).head? = some 0 → whole m e = [0]) ∧
      numeral 10 (whole m e) = scaled m e / 10 ^ 16 ∧ ∀ k, 0 < k → ((whole m e).length ≤ k ↔ scaled m e / 10 ^ 16 < 10 ^ k) := by
  obtain ⟨h1, h2, h3, h4, h5, h6, h7⟩ := natDigits_spec 400 _ (scaled_lt m e hm he) (by decide)
  refine ⟨h4, h1, ?_, h2, ?_⟩
  · intro h
    rcases Nat.eq_zero_or_pos (scaled m e / 10 ^ 16) with h0 | h0
    · exact h6 h0
    · exact absurd h (h5 h0)
  · intro k hk
    constructor
    · intro hl
      have := numeral_lt h1
      rw [h2] at this
      exact lt_of_lt_of_le this (Nat.pow_le_pow_right (by decide) hl)
    · exact h7 k hk

theorem sprintf16_eq (neg : Bool) (m : Nat) (e : Int) :
    sprintf16 (.fin neg m e) = (sign neg ++ (whole m e).map digitChar) ++ 0x2E#8 :: (padDigits 16 (scaled m e % 10 ^ 16)).map digitChar := by
  show sign neg ++ Dec.natText 400 (scaled m e / 10 ^ 16) ++ 0x2E#8 :: pad 16 (scaled m e % 10 ^ 16) = _
  rw [natText_eq, pad_eq]; rfl

theorem sprintf16_length (neg : Bool) (m : Nat) (e : Int) :
    (sprintf16 (.fin neg m e)).length = (sign neg).length + (whole m e).length + 17 := by
  rw [sprintf16_eq]; simp [padDigits_length]; omega

/-- The text has the form of a decimal and writes the rounded value. -/
theorem dblString_fin (neg : Bool) (m : Nat) (e : Int) (hm : m < 2 ^ 53) (he : e ≤ 971) {t : List Byte}
    (h : dblString (.fin neg m e) = some t) :
    ∃ f : List Nat, f ≠ [] ∧ (∀ d ∈ f, d < 10) ∧ (f.getLast? = some 0 → f = [0]) ∧ f.length ≤ 16 ∧
      t = sign neg ++ (whole m e).map digitChar ++ 0x2E#8 :: f.map digitChar ∧
      (numeral 10 (whole m e) : ℚ) + (numeral 10 f : ℚ) / 10 ^ f.length = (scaled m e : ℚ) / 10 ^ 16 := by
  unfold dblString at h
  dsimp only at h
  split at h
  · cases h
  · have h := Option.some.inj h
    rw [sprintf16_eq] at h
    obtain ⟨f, h1, h2, h3, h4, h5, h6⟩ := trim (sign neg ++ (whole m e).map digitChar) (padDigits 16 (scaled m e % 10 ^ 16))
      (padDigits_lt _ _) (by intro hh; have := congrArg List.length hh; rw [padDigits_length] at this; cases this)
    rw [h5] at h
    refine ⟨f, h1, h2, h3, by rw [padDigits_length] at h4; exact h4, h.symm, ?_⟩
    rw [h6, (whole_spec m e hm he).2.2.2.1, padDigits_length, padDigits_numeral _ _ (Nat.mod_lt _ (by norm_num))]
    have := Nat.div_add_mod (scaled m e) (10 ^ 16)
    have hq : ((scaled m e : Nat) : ℚ) = 10 ^ 16 * ((scaled m e / 10 ^ 16 : Nat) : ℚ) + ((scaled m e % 10 ^ 16 : Nat) : ℚ) := by
      exact_mod_cast this.symm
    rw [hq]
    generalize ((scaled m e / 10 ^ 16 : Nat) : ℚ) = a
    generalize ((scaled m e % 10 ^ 16 : Nat) : ℚ) = b
    ring

theorem fits_iff (neg : Bool) (m : Nat) (e : Int) (hm : m < 2 ^ 53) (he : e ≤ 971) :
    (dblString (.fin neg m e)).isSome ↔ mag m e < if neg then 10 ^ 21 else 10 ^ 22 := by
  have key : ∀ k, 0 < k → 21 ≤ k → ((whole m e).length ≤ k ↔ mag m e < 10 ^ k) := by
    intro k hk hk2
    rw [(whole_spec m e hm he).2.2.2.2 k hk]
    have e1 : scaled m e / 10 ^ 16 < 10 ^ k ↔ scaled m e < 10 ^ k * 10 ^ 16 := Nat.div_lt_iff_lt_mul (by norm_num)
    rw [e1]
    by_cases h0 : 0 ≤ e
    · have : (scaled m e : ℚ) = mag m e * 10 ^ 16 := by
        unfold scaled mag
        rw [if_pos h0]
        have : (2 : ℚ) ^ e = 2 ^ e.toNat := by
          conv => lhs; rw [← Int.toNat_of_nonneg h0]
          exact zpow_natCast 2 _
        rw [this]; push_cast; norm_num
      have e2 : scaled m e < 10 ^ k * 10 ^ 16 ↔ (scaled m e : ℚ) < 10 ^ k * 10 ^ 16 := by
        rw [← Nat.cast_lt (α := ℚ)]; push_cast; norm_num
      rw [e2, this]
      exact mul_lt_mul_iff_left₀ (by norm_num)
    · have hb : mag m e < 10 ^ 17 := by
        have h1 : (m : ℚ) ≤ 2 ^ 53 := by exact_mod_cast hm.le
        have h2 : (2 : ℚ) ^ e ≤ 1 := zpow_le_one_of_nonpos₀ (by norm_num) (by omega)
        have : mag m e ≤ 2 ^ 53 * 1 := mul_le_mul h1 h2 (zpow_nonneg (by norm_num) e) (by norm_num)
        refine lt_of_le_of_lt this (by norm_num)
      have hp : (10 : ℚ) ^ 21 ≤ 10 ^ k := pow_le_pow_right₀ (by norm_num) hk2
      have hp' : (10 : ℕ) ^ 21 ≤ 10 ^ k := Nat.pow_le_pow_right (by norm_num) hk2
      have h := (abs_le.1 (scaled_near m e)).1
      have h3 : (scaled m e : ℚ) < 10 ^ 17 * 10 ^ 16 + 1 := by linarith
      have h4 : scaled m e < 10 ^ 17 * 10 ^ 16 + 1 := by exact_mod_cast h3
      constructor
      · intro _; refine lt_of_lt_of_le hb (le_trans ?_ hp); norm_num
      · intro _
        refine lt_of_lt_of_le h4 (le_trans ?_ (Nat.mul_le_mul_right _ hp'))
        norm_num
  unfold dblString
  dsimp only
  rw [sprintf16_length]
  cases neg
  · have := key 22 (by decide) (by decide)
    simp only [sign, Bool.false_eq_true, if_false, List.length_nil]
    rw [← this]
    split <;> simp <;> omega
  · have := key 21 (by decide) (by decide)
    simp only [sign, if_true, List.length_cons, List.length_nil]
    rw [← this]
    split <;> simp <;> omega

/-! ### Reading it back -/

theorem mag_inj {m1 m2 : Nat} {e1 e2 : Int} (h1 : m1 < 2 ^ 53) (h2 : 2 ^ 52 ≤ m2 ∨ e2 = -1074) (he1 : -1074 ≤ e1)
    (hlt : e1 < e2) : mag m1 e1 ≠ mag m2 e2 := by
  intro h
  have hm2 : 2 ^ 52 ≤ m2 := by rcases h2 with h2 | h2 <;> omega
  have hp : (0 : ℚ) < 2 ^ e1 := zpow_pos (by norm_num) e1
  have hs : (2 : ℚ) ^ e2 = 2 ^ (e2 - e1) * 2 ^ e1 := by rw [← zpow_add₀ (by norm_num)]; congr 1; omega
  have h3 : (2 : ℚ) ≤ 2 ^ (e2 - e1) := by
    have := zpow_le_zpow_right₀ (a := (2 : ℚ)) (by norm_num) (show (1 : ℤ) ≤ e2 - e1 by omega)
    simpa using this
  have h4 : (m1 : ℚ) < 2 ^ 53 := by exact_mod_cast h1
  have h5 : (2 : ℚ) ^ 52 ≤ m2 := by exact_mod_cast hm2
  unfold mag at h
  rw [hs, ← mul_assoc] at h
  have h6 := mul_right_cancel₀ hp.ne' h
  have h7 : (2 : ℚ) ^ 52 * 2 ≤ m2 * 2 ^ (e2 - e1) := mul_le_mul h5 h3 (by norm_num) (by linarith [h5, show (0 : ℚ) ≤ 2 ^ 52 by norm_num])
  rw [← h6] at h7
  linarith

/-- A finite double is determined by its value, unless that is zero. -/
theorem value_inj {a b : Double} (ha : Finite a) (hb : Finite b) (h : value a = value b) (h0 : value a ≠ 0) : a = b := by
  obtain ⟨na, ma, ea, rfl⟩ : ∃ n m e, a = .fin n m e := by cases a <;> first | exact ⟨_, _, _, rfl⟩ | exact ha.elim
  obtain ⟨nb, mb, eb, rfl⟩ : ∃ n m e, b = .fin n m e := by cases b <;> first | exact ⟨_, _, _, rfl⟩ | exact hb.elim
  obtain ⟨a1, a2, a3, a4⟩ := ha
  obtain ⟨b1, b2, b3, b4⟩ := hb
  rw [value_fin] at h h0
  rw [value_fin] at h
  have pa := mag_nonneg ma ea
  have pb := mag_nonneg mb eb
  have hpos : mag ma ea ≠ 0 := fun hz => h0 (by rw [hz, mul_zero])
  have hn : na = nb := by
    cases na <;> cases nb <;> simp at h ⊢
    · exact hpos (by linarith)
    · exact hpos (by linarith)
  subst hn
  have hm : mag ma ea = mag mb eb := by
    cases na <;> simp at h <;> exact h
  have he : ea = eb := by
    rcases lt_trichotomy ea eb with hl | hl | hl
    · exact absurd hm (mag_inj a1 b4 a2 hl)
    · exact hl
    · exact absurd hm.symm (mag_inj b1 a4 b2 hl)
  subst he
  have : (ma : ℚ) = mb := by
    unfold mag at hm
    exact mul_right_cancel₀ (zpow_pos (by norm_num : (0 : ℚ) < 2) ea).ne' hm
  have : ma = mb := by exact_mod_cast this
  rw [this]

/-- From one half on, doubles are multiples of `2^-53`. -/
theorem grid {d : Double} (hd : Finite d) (h : 1 / 2 ≤ |value d|) : ∃ k : ℤ, value d = k * (1 / 2 ^ 53) := by
  obtain ⟨n, m, e, rfl⟩ : ∃ n m e, d = .fin n m e := by cases d <;> first | exact ⟨_, _, _, rfl⟩ | exact hd.elim
  obtain ⟨a1, a2, a3, a4⟩ := hd
  have hab : |value (.fin n m e)| = mag m e := by
    rw [value_fin, abs_mul, abs_of_nonneg (mag_nonneg m e)]
    cases n <;> simp
  rw [hab] at h
  have he : -53 ≤ e := by
    by_contra hc
    have h1 : (m : ℚ) < 2 ^ 53 := by exact_mod_cast a1
    have h2 : (2 : ℚ) ^ e ≤ 2 ^ (-54 : ℤ) := zpow_le_zpow_right₀ (by norm_num) (by omega)
    have h3 : (0 : ℚ) < 2 ^ e := zpow_pos (by norm_num) e
    have : mag m e < 2 ^ 53 * 2 ^ (-54 : ℤ) := by
      unfold mag
      calc (m : ℚ) * 2 ^ e < 2 ^ 53 * 2 ^ e := mul_lt_mul_of_pos_right h1 h3
        _ ≤ _ := mul_le_mul_of_nonneg_left h2 (by norm_num)
    norm_num at this
    linarith
  have hs : (2 : ℚ) ^ e = ((2 ^ (e + 53).toNat : ℤ) : ℚ) * (1 / 2 ^ 53) := by
    have : (2 : ℚ) ^ e = 2 ^ ((e + 53).toNat : ℤ) * 2 ^ (-53 : ℤ) := by
      rw [← zpow_add₀ (by norm_num)]; congr 1; omega
    rw [this, zpow_natCast]
    push_cast
    norm_num
  refine ⟨(if n then -1 else 1) * (m * 2 ^ (e + 53).toNat), ?_⟩
  rw [value_fin]
  unfold mag
  rw [hs]
  cases n <;> push_cast <;> simp <;> ring

/-- A double from one half on is the only one that is as near to a number within `10^-16 / 2`. -/
theorem nearest_unique {d y : Double} {q : ℚ} (hd : Finite d) (h : 1 / 2 ≤ |value d|) (hq : |q - value d| ≤ 1 / 2 / 10 ^ 16)
    (hhalf : |value d| = 1 / 2 → q = value d) (hy : Nearest q y) : y = d := by
  have h1 := hy.2 d hd
  have hdy : |value d - value y| ≤ 1 / 10 ^ 16 := by
    have : value d - value y = (q - value y) - (q - value d) := by ring
    rw [this]
    refine le_trans (abs_sub _ _) ?_
    have : (1 : ℚ) / 10 ^ 16 = 1 / 2 / 10 ^ 16 + 1 / 2 / 10 ^ 16 := by norm_num
    linarith
  have hval : value d = value y := by
    obtain ⟨k, hk⟩ := grid hd h
    by_cases hyh : 1 / 2 ≤ |value y|
    · obtain ⟨j, hj⟩ := grid hy.1 hyh
      rw [hk, hj, ← sub_mul, abs_mul] at hdy
      have h2 : |(k : ℚ) - j| < 1 := by
        have e1 : |(1 : ℚ) / 2 ^ 53| = 1 / 2 ^ 53 := abs_of_pos (by norm_num)
        rw [e1] at hdy
        have : (1 : ℚ) / 10 ^ 16 < 1 * (1 / 2 ^ 53) := by norm_num
        exact lt_of_mul_lt_mul_right (lt_of_le_of_lt hdy this) (by norm_num)
      have h3 : |k - j| < 1 := by exact_mod_cast h2
      have h4 : k = j := by rw [abs_lt] at h3; omega
      rw [hk, hj, h4]
    · have hh : |value d| = 1 / 2 := by
        have h5 : |value d| - |value y| ≤ 1 / 10 ^ 16 := le_trans (abs_sub_abs_le_abs_sub _ _) hdy
        have h6 : |value d| < 1 / 2 + 1 / 10 ^ 16 := by linarith
        have h7 : |value d| = |(k : ℚ)| * (1 / 2 ^ 53) := by rw [hk, abs_mul, abs_of_pos (by norm_num : (0 : ℚ) < 1 / 2 ^ 53)]
        have h8 : |(k : ℚ)| < 2 ^ 52 + 1 := by
          rw [h7] at h6
          have : (1 : ℚ) / 2 + 1 / 10 ^ 16 < (2 ^ 52 + 1) * (1 / 2 ^ 53) := by norm_num
          exact lt_of_mul_lt_mul_right (lt_trans h6 this) (by norm_num)
        have h9 : |k| < 2 ^ 52 + 1 := by exact_mod_cast h8
        have h10 : |(k : ℚ)| ≤ 2 ^ 52 := by
          have : |k| ≤ 2 ^ 52 := by omega
          exact_mod_cast this
        refine le_antisymm ?_ h
        rw [h7]
        refine le_trans (mul_le_mul_of_nonneg_right h10 (by norm_num)) (by norm_num)
      have h11 := hhalf hh
      rw [h11, sub_self, abs_zero] at h1
      have := abs_nonpos_iff.1 h1
      linarith
  refine (value_inj hd hy.1 hval ?_).symm
  intro h0; rw [h0] at h; norm_num at h

/-! ### A `strtod` exists -/

theorem nearest_exists (q : ℚ) : ∃ d, Nearest q d := by
  have hfin : {d : Double | Spec.Finite d}.Finite := by
    refine (Set.finite_range (fun p : Bool × Fin (2 ^ 53) × Fin 2046 => Double.fin p.1 p.2.1.val ((p.2.2.val : Int) - 1074))).subset ?_
    intro d hd
    cases d with
    | fin n m e =>
      obtain ⟨a1, a2, a3, _⟩ := (hd : Spec.Finite (.fin n m e))
      refine ⟨(n, ⟨m, a1⟩, ⟨(e + 1074).toNat, by omega⟩), ?_⟩
      simp only [Double.fin.injEq, true_and]
      omega
    | inf _ => exact (hd : False).elim
    | nan _ => exact (hd : False).elim
  obtain ⟨d, hd, hmin⟩ := Set.exists_min_image {d : Double | Spec.Finite d} (fun d => |q - value d|) hfin
    ⟨.fin false 0 (-1074), show Spec.Finite (Double.fin false 0 (-1074)) by decide⟩
  exact ⟨d, hd, fun y hy => hmin y hy⟩

theorem digit_bounds {d : Nat} (h : d < 10) : 48 ≤ (digitChar d).toNat ∧ (digitChar d).toNat ≤ 57 := by
  rw [toNat_digitChar h]; omega

theorem digitChar_inj {a b : Nat} (ha : a < 10) (hb : b < 10) (h : digitChar a = digitChar b) : a = b := by
  have := congrArg BitVec.toNat h
  rw [toNat_digitChar ha, toNat_digitChar hb] at this
  omega

/-- Digits end where something else begins. -/
theorem run_unique : ∀ {i j : List Nat} {a b : List Byte}, (∀ d ∈ i, d < 10) → (∀ d ∈ j, d < 10) →
    (∀ c ∈ a.head?, ¬ (48 ≤ c.toNat ∧ c.toNat ≤ 57)) → (∀ c ∈ b.head?, ¬ (48 ≤ c.toNat ∧ c.toNat ≤ 57)) →
    i.map digitChar ++ a = j.map digitChar ++ b → i = j ∧ a = b
  | [], [], _, _, _, _, _, _, h => ⟨rfl, by simpa using h⟩
  | x :: i, [], a, b, hi, _, _, hb, h => by
    simp only [List.map_cons, List.cons_append, List.map_nil, List.nil_append] at h
    exact absurd (digit_bounds (hi x (by simp))) (hb _ (by rw [← h]; simp))
  | [], y :: j, a, b, _, hj, ha, _, h => by
    simp only [List.map_cons, List.cons_append, List.map_nil, List.nil_append] at h
    exact absurd (digit_bounds (hj y (by simp))) (ha _ (by rw [h]; simp))
  | x :: i, y :: j, a, b, hi, hj, ha, hb, h => by
    simp only [List.map_cons, List.cons_append, List.cons.injEq] at h
    obtain ⟨h1, h2⟩ := run_unique (fun d hd => hi d (List.mem_cons_of_mem _ hd)) (fun d hd => hj d (List.mem_cons_of_mem _ hd)) ha hb h.2
    exact ⟨by rw [digitChar_inj (hi x (by simp)) (hj y (by simp)) h.1, h1], h2⟩

theorem decimal_unique {t t' rest rest' : List Byte} {q q' : ℚ} (h : IsDecimal t q) (h' : IsDecimal t' q')
    (hr : Dump.NoNumber rest) (hr' : Dump.NoNumber rest') (e : t ++ rest = t' ++ rest') : q = q' := by
  obtain ⟨n, i, f, a1, a2, a3, a4, a5⟩ := h
  obtain ⟨n', i', f', b1, b2, b3, b4, b5⟩ := h'
  have hi : ∀ d ∈ i, d < 10 := fun d hd => a3 d (List.mem_append_left _ hd)
  have hi' : ∀ d ∈ i', d < 10 := fun d hd => b3 d (List.mem_append_left _ hd)
  have hf : ∀ d ∈ f, d < 10 := fun d hd => a3 d (List.mem_append_right _ hd)
  have hf' : ∀ d ∈ f', d < 10 := fun d hd => b3 d (List.mem_append_right _ hd)
  rw [a4, b4] at e
  simp only [List.append_assoc, List.cons_append] at e
  have minus : ∀ (k : List Nat) (a b : List Byte), k ≠ [] → (∀ d ∈ k, d < 10) → k.map digitChar ++ a = 0x2D#8 :: b → False := by
    intro k a b hk hk2 he
    cases k with
    | nil => exact hk rfl
    | cons x k =>
      simp only [List.map_cons, List.cons_append, List.cons.injEq] at he
      have := digit_bounds (hk2 x (by simp))
      rw [he.1] at this
      exact absurd this (by decide)
  have hn : n = n' := by
    cases n <;> cases n' <;> simp [sign] at e ⊢
    · exact minus _ _ _ a1 hi e
    · exact minus _ _ _ b1 hi' e.symm
  subst hn
  have e := List.append_cancel_left e
  have pt : ∀ (l : List Byte), ∀ c ∈ (0x2E#8 :: l).head?, ¬ (48 ≤ c.toNat ∧ c.toNat ≤ 57) := by
    intro l c hc
    simp at hc
    subst hc
    decide
  obtain ⟨e1, e2⟩ := run_unique hi hi' (pt _) (pt _) e
  simp only [List.cons.injEq, true_and] at e2
  obtain ⟨e3, _⟩ := run_unique hf hf' (fun c hc => (hr c hc).1) (fun c hc => (hr' c hc).1) e2
  rw [a5, b5, e1, e3]

theorem strtod_exists : ∃ read, Strtod read := by
  classical
  refine ⟨fun b => if h : ∃ q, ∃ t rest, b = t ++ rest ∧ IsDecimal t q ∧ Dump.NoNumber rest then (nearest_exists h.choose).choose else .nan false, ?_⟩
  intro t q rest h1 _ h3
  have hex : ∃ q', ∃ t' rest', t ++ rest = t' ++ rest' ∧ IsDecimal t' q' ∧ Dump.NoNumber rest' := ⟨q, t, rest, rfl, h1, h3⟩
  dsimp only
  rw [dif_pos hex]
  have hq : hex.choose = q := by
    obtain ⟨t', rest', c1, c2, c3⟩ := hex.choose_spec
    exact decimal_unique c2 h1 c3 h3 c1.symm
  have := (nearest_exists hex.choose).choose_spec
  rw [hq] at this
  convert this using 3

end Potion.Dbl
