import Verif.Proof.Mixed
import Verif.Props.Numbers
/-!
C75. Arithmetic and comparison of integers and floating point numbers with each other: the interpreter's operators give the double nearest to
the exact result, compare exactly, and refuse other operands; where they do not (`==`, `**`, `<=>`, `cmp`, shifts, large remainders).
-/
namespace Potion.Mixed
open Potion Potion.Spec Potion.Dbl

/-! ### Operands as doubles -/

theorem operand {F : Fpu} (hF : Ieee F) {x : Val} (hx : Number x) :
    Nearest (exact x) (pnDbl F x) ∧ (Fine x → value (pnDbl F x) = exact x) := by
  cases x with
  | int w =>
    have hw := pnInt_fits w
    have h := hF.ofLong (pnInt w) (by unfold Fits63 at hw; unfold FitsLong; omega)
    exact ⟨h, fun hf => nearest_int hf h⟩
  | dbl a d =>
    refine ⟨⟨hx, ?_⟩, fun _ => rfl⟩
    intro y _
    show |value d - value d| ≤ _
    rw [sub_self, abs_zero]; exact abs_nonneg _
  | other => exact hx.elim

theorem arith_eq (F : Fpu) (op : AOp) {x y : Val} (hx : Number x) (hy : Number y) (hb : ¬ BothInt x y) :
    vmArith F op x y = numMath F op (pnDbl F x) (pnDbl F y) := by
  cases x <;> cases y <;> first | exact hx.elim | exact hy.elim | exact (hb trivial).elim | rfl

theorem numMath_nearest {F : Fpu} (hF : Ieee F) {op : AOp} {a b : Double} (ha : Spec.Finite a) (hb : Spec.Finite b) {q : ℚ}
    (hq : apply op (value a) (value b) = some q) (hs : |q| < 2 ^ 1023) : ∃ r, numMath F op a b = .dbl r ∧ Nearest q r := by
  cases op <;> simp only [apply, Option.some.injEq, reduceCtorEq] at hq
  · subst hq; exact ⟨_, rfl, hF.add a b ha hb hs⟩
  · subst hq; exact ⟨_, rfl, hF.sub a b ha hb hs⟩
  · subst hq; exact ⟨_, rfl, hF.mul a b ha hb hs⟩
  · split at hq
    · cases hq
    · rename_i h0
      have := Option.some.inj hq
      subst this; exact ⟨_, rfl, hF.div a b ha hb h0 hs⟩

/-- **C75 (arithmetic).** `+ - * /` of two numbers, at least one of them a double, give a double nearest to the exact result. (Integers up to
2⁵³; larger ones are first rounded, see `C75_arith_large`.) -/
theorem C75_arith {F : Fpu} (hF : Ieee F) {op : AOp} {x y : Val} (hx : Number x) (hy : Number y) (hb : ¬ BothInt x y)
    (fx : Fine x) (fy : Fine y) {q : ℚ} (hq : apply op (exact x) (exact y) = some q) (hs : |q| < 2 ^ 1023) :
    ∃ r, vmArith F op x y = .dbl r ∧ Nearest q r := by
  rw [arith_eq F op hx hy hb]
  obtain ⟨h1, h2⟩ := operand hF hx
  obtain ⟨h3, h4⟩ := operand hF hy
  exact numMath_nearest hF h1.1 h3.1 (by rw [h2 fx, h4 fy]; exact hq) hs

/-- **C75 (arithmetic, exact).** If the exact result is a double, it is the result. -/
theorem C75_exact {F : Fpu} (hF : Ieee F) {op : AOp} {x y : Val} (hx : Number x) (hy : Number y) (hb : ¬ BothInt x y)
    (fx : Fine x) (fy : Fine y) {z : Double} (hz : Spec.Finite z) (hq : apply op (exact x) (exact y) = some (value z))
    (hs : |value z| < 2 ^ 1023) : ∃ r, vmArith F op x y = .dbl r ∧ value r = value z := by
  obtain ⟨r, h1, h2⟩ := C75_arith hF hx hy hb fx fy hq hs
  exact ⟨r, h1, nearest_exact h2 hz rfl⟩

/-- **C75 (arithmetic, all numbers).** In general the operands are first rounded to doubles. -/
theorem C75_arith_large {F : Fpu} (hF : Ieee F) {op : AOp} {x y : Val} (hx : Number x) (hy : Number y) (hb : ¬ BothInt x y) :
    ∃ a b, Nearest (exact x) a ∧ Nearest (exact y) b ∧ ∀ q, apply op (value a) (value b) = some q → |q| < 2 ^ 1023 →
      ∃ r, vmArith F op x y = .dbl r ∧ Nearest q r := by
  obtain ⟨h1, _⟩ := operand hF hx
  obtain ⟨h3, _⟩ := operand hF hy
  refine ⟨_, _, h1, h3, fun q hq hs => ?_⟩
  rw [arith_eq F op hx hy hb]
  exact numMath_nearest hF h1.1 h3.1 hq hs

/-- **C75 (arithmetic, integers).** `+ - *` of two integers give the exact integer if it has 63 bits, and otherwise the double nearest to the
result for the rounded operands. -/
theorem C75_ints {F : Fpu} (hF : Ieee F) {op : AOp} (hop : op = .add ∨ op = .sub ∨ op = .mul) {v w : PN} (hv : isInt v = true) (hw : isInt w = true) :
    (∃ k : Int, (k : ℚ) = (apply op (pnInt v) (pnInt w)).getD 0 ∧ Fits63 k ∧ vmArith F op (.int v) (.int w) = .int (pnNum k)) ∨
    ∃ a b r, Nearest (pnInt v : ℚ) a ∧ Nearest (pnInt w : ℚ) b ∧ vmArith F op (.int v) (.int w) = .dbl r ∧
      ∀ q, apply op (value a) (value b) = some q → |q| < 2 ^ 1023 → Nearest q r := by
  have hd : Denotes v (pnInt v) := (denotes_iff _ _).2 ⟨hv, rfl⟩
  have hd2 : Denotes w (pnInt w) := (denotes_iff _ _).2 ⟨hw, rfl⟩
  obtain ⟨h1, h2⟩ := Props.C03_vm_no_wrap F.ofLong (fpuOp F op) op hop v w _ _ hd hd2
  have hvm : vmArith F op (.int v) (.int w) = ofNum (vmMath3 op F.ofLong (fpuOp F op) v w) := by
    rcases hop with rfl | rfl | rfl <;> rfl
  by_cases hr : InRange (Props.exact3 op (pnInt v) (pnInt w))
  · obtain ⟨u, e1, e2⟩ := h1 hr
    left
    obtain ⟨e3, e4⟩ := (denotes_iff _ _).1 e2
    refine ⟨pnInt u, ?_, pnInt_fits u, ?_⟩
    · rw [e4]; rcases hop with rfl | rfl | rfl <;> simp [Props.exact3, apply]
    · rw [hvm, e1, pnNum_pnInt e3]; rfl
  · right
    have n1 := (operand hF (x := .int v) hv).1
    have n2 := (operand hF (x := .int w) hw).1
    refine ⟨F.ofLong (pnInt v), F.ofLong (pnInt w), fpuOp F op (F.ofLong (pnInt v)) (F.ofLong (pnInt w)), n1, n2, by rw [hvm, h2 hr]; rfl, ?_⟩
    intro q hq hs
    obtain ⟨r, e1, e2⟩ := numMath_nearest hF n1.1 n2.1 hq hs
    rcases hop with rfl | rfl | rfl <;> (have := Out.dbl.inj e1; subst this; exact e2)

/-- **C75 (comparison).** `< <= > >=` of two numbers, at least one of them a double, compare the numbers (integers up to 2⁵³). -/
theorem C75_compare {F : Fpu} (hF : Ieee F) (c : COp) {x y : Val} (hx : Number x) (hy : Number y) (hb : ¬ BothInt x y)
    (fx : Fine x) (fy : Fine y) : vmCompare F c x y = .bool (holds c (exact x) (exact y)) := by
  have e : vmCompare F c x y = .bool (dcmp c (pnDbl F x) (pnDbl F y)) := by
    cases x <;> cases y <;> first | exact hx.elim | exact hy.elim | exact (hb trivial).elim | rfl
  obtain ⟨h1, h2⟩ := operand hF hx
  obtain ⟨h3, h4⟩ := operand hF hy
  rw [e, dcmp_value h1.1 h3.1, h2 fx, h4 fy]

/-- **C75 (infinities and NaN).** Every number is below infinity and above minus infinity; nothing compares with a NaN, not even itself. -/
theorem C75_special (F : Fpu) (c : COp) (a b : PN) (d : Double) :
    (Spec.Finite d → vmCompare F c (.dbl a d) (.dbl b (.inf false)) = .bool (c = .lt ∨ c = .le) ∧ vmCompare F c (.dbl b (.inf false)) (.dbl a d) = .bool (c = .gt ∨ c = .ge) ∧
      vmCompare F c (.dbl a d) (.dbl b (.inf true)) = .bool (c = .gt ∨ c = .ge) ∧ vmCompare F c (.dbl b (.inf true)) (.dbl a d) = .bool (c = .lt ∨ c = .le)) ∧
    (∀ n m, vmCompare F c (.dbl a (.inf n)) (.dbl b (.inf m)) = .bool (match c with | .lt => n && !m | .le => n || !m | .gt => !n && m | .ge => !n || m)) ∧
    (∀ n, vmCompare F c (.dbl a d) (.dbl b (.nan n)) = .bool false ∧ vmCompare F c (.dbl b (.nan n)) (.dbl a d) = .bool false ∧
      vmEq (.dbl a d) (.dbl b (.nan n)) = false ∧ vmEq (.dbl b (.nan n)) (.dbl a d) = false ∧ vmNeq (.dbl a d) (.dbl b (.nan n)) = true) := by
  refine ⟨fun hd => ?_, fun n m => ?_, fun n => ?_⟩
  · obtain ⟨n, m, e, rfl⟩ := fin_of hd
    cases c <;> exact ⟨rfl, rfl, rfl, rfl⟩
  · cases c <;> cases n <;> cases m <;> rfl
  · cases c <;> cases d <;> exact ⟨rfl, rfl, rfl, rfl, rfl⟩

/-- **C75 (equality of doubles).** Two doubles are equal exactly if they are the same number; two integers likewise; `!=` is the contrary. -/
theorem C75_equal_partial {x y : Val} (hx : Number x) (hy : Number y) (h : BothInt x y ∨ (¬ BothInt x y ∧ (∃ a d, x = .dbl a d) ∧ ∃ a d, y = .dbl a d)) :
    (vmEq x y = true ↔ exact x = exact y) ∧ vmNeq x y = !vmEq x y := by
  rcases h with h | ⟨_, ⟨a, d, rfl⟩, b, d', rfl⟩
  · cases x <;> cases y <;> first | exact h.elim | skip
    rename_i v w
    refine ⟨?_, rfl⟩
    show (v == w) = true ↔ ((pnInt v : ℤ) : ℚ) = ((pnInt w : ℤ) : ℚ)
    rw [beq_iff_eq]
    constructor
    · rintro rfl; rfl
    · intro he
      have : pnInt v = pnInt w := by exact_mod_cast he
      rw [← pnNum_pnInt (v := v) hx, ← pnNum_pnInt (v := w) hy, this]
  · refine ⟨?_, rfl⟩
    show deq d d' = true ↔ value d = value d'
    rw [deq_value hx hy, decide_eq_true_iff]

/-- **C75 (other operands).** Arithmetic and comparison with something that is no number is an error. -/
theorem C75_error (F : Fpu) {x y : Val} (h : x = .other ∨ y = .other) :
    (∀ op, vmArith F op x y = .error) ∧ ∀ c, vmCompare F c x y = .error := by
  rcases h with rfl | rfl
  · cases y <;> exact ⟨fun _ => rfl, fun _ => rfl⟩
  · cases x <;> exact ⟨fun _ => rfl, fun _ => rfl⟩

/-! ### Remainder -/

theorem neg_finite {d : Double} (hd : Spec.Finite d) : ∃ d', Spec.Finite d' ∧ value d' = -value d := by
  obtain ⟨n, m, e, rfl⟩ := fin_of hd
  refine ⟨.fin (!n) m e, hd, ?_⟩
  rw [value_fin, value_fin]; cases n <;> simp

theorem nearest_neg {q : ℚ} {r r' : Double} (h : Nearest q r) (hf : Spec.Finite r') (hv : value r' = -value r) : Nearest (-q) r' := by
  refine ⟨hf, fun y hy => ?_⟩
  obtain ⟨y', h1, h2⟩ := neg_finite hy
  have := h.2 y' h1
  rw [h2] at this
  rw [hv]
  have e1 : -q - -value r = -(q - value r) := by ring
  have e2 : -q - value y = -(q - -value y) := by ring
  rw [e1, e2, abs_neg, abs_neg]; exact this

/-- The truncated quotient of two integers below 2^53. -/
theorem toInt_quotient (i j : Int) (hi : |i| < 2 ^ 53) (hj : |j| < 2 ^ 53) (h0 : j ≠ 0) {r : Double} (h : Nearest ((i : ℚ) / j) r)
    (hr : -(2 ^ 31) ≤ Int.tdiv i j ∧ Int.tdiv i j < 2 ^ 31) : toInt r = some (Int.tdiv i j) := by
  have ha : i.natAbs < 2 ^ 53 := by rw [abs_lt] at hi; omega
  have hb : j.natAbs < 2 ^ 53 := by rw [abs_lt] at hj; omega
  have hb0 : 0 < j.natAbs := by omega
  -- the quotient of the absolute values, and its sign
  obtain ⟨s, hs, ht⟩ : ∃ s : Bool, (i : ℚ) / j = (if s then -1 else 1) * ((i.natAbs : ℚ) / j.natAbs) ∧
      Int.tdiv i j = (if s then -1 else 1) * ((i.natAbs / j.natAbs : Nat) : Int) := by
    rcases Int.natAbs_eq i with ei | ei <;> rcases Int.natAbs_eq j with ej | ej
    · refine ⟨false, ?_, ?_⟩
      · conv => lhs; rw [ei, ej]
        simp
      · conv => lhs; rw [ei, ej]
        rw [← Int.ofNat_tdiv]; simp
    · refine ⟨true, ?_, ?_⟩
      · conv => lhs; rw [ei, ej]
        push_cast; simp [div_neg]
      · conv => lhs; rw [ei, ej]
        rw [Int.tdiv_neg, ← Int.ofNat_tdiv]; simp
    · refine ⟨true, ?_, ?_⟩
      · conv => lhs; rw [ei, ej]
        push_cast; simp [neg_div]
      · conv => lhs; rw [ei, ej]
        rw [Int.neg_tdiv, ← Int.ofNat_tdiv]; simp
    · refine ⟨false, ?_, ?_⟩
      · conv => lhs; rw [ei, ej]
        push_cast; simp
      · conv => lhs; rw [ei, ej]
        rw [Int.tdiv_neg, Int.neg_tdiv, ← Int.ofNat_tdiv]; simp
  generalize i.natAbs = a at *
  generalize j.natAbs = b at *
  obtain ⟨n, m, e, rfl⟩ := fin_of h.1
  -- the magnitude of the result
  have hq : ((a / b : Nat) : ℚ) ≤ (if s then -1 else 1) * value (.fin n m e) ∧
      (if s then -1 else 1) * value (.fin n m e) < ((a / b : Nat) : ℚ) + 1 := by
    cases s
    · have := quotient a b ha hb hb0 (r := .fin n m e) (by rw [hs] at h; simpa using h)
      simpa using this
    · obtain ⟨r', f1, f2⟩ := neg_finite h.1
      have h' := nearest_neg h f1 f2
      rw [hs] at h'
      have := quotient a b ha hb hb0 (r := r') (by simpa using h')
      rw [f2] at this
      simpa using this
  rw [value_fin] at hq
  have hm := mag_nonneg m e
  have hw : whole m e = a / b ∧ (n = s ∨ whole m e = 0) := by
    by_cases hns : n = s
    · refine ⟨whole_eq ?_ ?_, Or.inl hns⟩
      · subst hns; cases n <;> simpa using hq.1
      · subst hns; cases n <;> simpa using hq.2
    · have h1 : ((a / b : Nat) : ℚ) ≤ -mag m e := by
        cases n <;> cases s <;> first | exact absurd rfl hns | simpa using hq.1
      have h2 : (0 : ℚ) ≤ ((a / b : Nat) : ℚ) := Nat.cast_nonneg _
      have h3 : mag m e = 0 := by linarith
      have h4 : ((a / b : Nat) : ℚ) = 0 := by linarith
      have h5 : a / b = 0 := by exact_mod_cast h4
      have h6 : whole m e = 0 := whole_eq (by rw [h3]; simp) (by rw [h3]; norm_num)
      exact ⟨by rw [h5, h6], Or.inr h6⟩
  have hz : ((if n then -1 else 1) * (whole m e : Int) : Int) = Int.tdiv i j := by
    rw [ht]
    rcases hw with ⟨hw, rfl | h0⟩
    · rw [hw]
    · rw [← hw, h0]; simp
  unfold toInt
  dsimp only
  rw [hz, if_pos hr]

/-- **C75 (remainder).** The remainder of two whole numbers, at least one of them a double, is exact, if they are below 2⁵³ and the quotient
fits an `int`; it has the sign of the dividend. -/
theorem C75_rem_partial {F : Fpu} (hF : Ieee F) {x y : Val} (hx : Number x) (hy : Number y) (hb : ¬ BothInt x y) {i j : Int}
    (ei : exact x = i) (ej : exact y = j) (hi : |i| < 2 ^ 53) (hj : |j| < 2 ^ 53) (h0 : j ≠ 0)
    (hr : -(2 ^ 31) ≤ Int.tdiv i j ∧ Int.tdiv i j < 2 ^ 31) :
    ∃ r, vmArith F .rem x y = .dbl r ∧ value r = Int.tmod i j := by
  have fx : Fine x := by
    cases x with
    | int w => have : pnInt w = i := by
                 have e : ((pnInt w : ℤ) : ℚ) = (i : ℚ) := ei
                 exact_mod_cast e
               show |pnInt w| ≤ _; rw [this]; exact hi.le
    | dbl => trivial
    | other => trivial
  have fy : Fine y := by
    cases y with
    | int w => have : pnInt w = j := by
                 have e : ((pnInt w : ℤ) : ℚ) = (j : ℚ) := ej
                 exact_mod_cast e
               show |pnInt w| ≤ _; rw [this]; exact hj.le
    | dbl => trivial
    | other => trivial
  rw [arith_eq F _ hx hy hb]
  obtain ⟨h1, h2⟩ := operand hF hx
  obtain ⟨h3, h4⟩ := operand hF hy
  have v1 := (h2 fx).trans ei
  have v2 := (h4 fy).trans ej
  have big : ∀ k : Int, |k| < 2 ^ 53 → |(k : ℚ)| < 2 ^ 1023 := by
    intro k hk
    have : |(k : ℚ)| < 2 ^ 53 := by exact_mod_cast hk
    exact lt_trans this (pow_lt_pow_right₀ (by norm_num) (by norm_num))
  have hj0 : (j : ℚ) ≠ 0 := by exact_mod_cast h0
  have hdiv := hF.div _ _ h1.1 h3.1 (by rw [v2]; exact hj0) (by
    rw [v1, v2, abs_div]
    refine lt_of_le_of_lt (div_le_self (abs_nonneg _) ?_) (big i hi)
    have : (1 : ℤ) ≤ |j| := Int.one_le_abs h0
    exact_mod_cast this)
  rw [v1, v2] at hdiv
  have ht := toInt_quotient i j hi hj h0 hdiv hr
  have he : Int.tmod i j = i - j * Int.tdiv i j := Int.tmod_def i j
  have hz31 : |Int.tdiv i j| ≤ 2 ^ 53 := by rw [abs_le]; omega
  have hjz : |j * Int.tdiv i j| < 2 ^ 53 := by
    have h5 : (j * Int.tdiv i j).natAbs ≤ i.natAbs := by
      rw [Int.natAbs_mul, Int.natAbs_tdiv, Nat.mul_comm]
      exact Nat.div_mul_le_self _ _
    rw [abs_lt] at hi ⊢
    omega
  have hmd : |Int.tmod i j| < 2 ^ 53 := by
    have h5 : (Int.tmod i j).natAbs ≤ i.natAbs := by
      rw [Int.natAbs_tmod]; exact Nat.mod_le _ _
    rw [abs_lt] at hi ⊢
    omega
  have nz := hF.ofLong (Int.tdiv i j) (by unfold FitsLong; omega)
  have vz := nearest_int hz31 nz
  have nm := hF.mul _ _ h3.1 nz.1 (by rw [v2, vz, ← Int.cast_mul]; exact big _ hjz)
  have vm : value (F.mul (pnDbl F y) (F.ofLong (Int.tdiv i j))) = ((j * Int.tdiv i j : Int) : ℚ) :=
    nearest_int hjz.le (by rw [v2, vz] at nm; exact_mod_cast nm)
  have ns := hF.sub _ _ h1.1 nm.1 (by rw [v1, vm, ← Int.cast_sub, ← he]; exact big _ hmd)
  refine ⟨_, by simp only [numMath, ht]; rfl, ?_⟩
  rw [v1, vm, ← Int.cast_sub, ← he] at ns
  exact nearest_int hmd.le ns

/-! ### Conversions -/

/-- **C75 (`integer` of an integer).** It is the integer. -/
theorem C75_integer_int (w : PN) : numInteger (.int w) = .int w := rfl

/-- **C75 (`integer`).** `integer` of a double between 0 and 2⁶² is the number rounded down. -/
theorem C75_integer_partial {addr : PN} {d : Double} (hd : Spec.Finite d) (h0 : 0 ≤ value d) (h1 : value d < 2 ^ 62) :
    numInteger (.dbl addr d) = .int (pnNum ⌊value d⌋) ∧ Fits63 ⌊value d⌋ := by
  obtain ⟨n, m, e, rfl⟩ := fin_of hd
  obtain ⟨w1, w2⟩ := whole_le m e
  rw [value_fin] at h0 h1 ⊢
  have hm := mag_nonneg m e
  cases n
  · simp only [Bool.false_eq_true, if_false, one_mul] at h0 h1 ⊢
    have hf : ⌊mag m e⌋ = (whole m e : Int) := Int.floor_eq_iff.2 ⟨by exact_mod_cast w1, by exact_mod_cast w2⟩
    have hlt : (whole m e : ℚ) < 2 ^ 62 := lt_of_le_of_lt w1 h1
    have hlt' : whole m e < 2 ^ 62 := by exact_mod_cast hlt
    rw [hf]
    refine ⟨?_, by unfold Fits63; omega⟩
    simp only [numInteger, Bool.false_eq_true, if_false]
    rw [if_pos (by omega)]
  · simp only [if_true] at h0 h1 ⊢
    have hz : mag m e = 0 := by linarith
    have hm0 : m = 0 := by
      unfold mag at hz
      rcases mul_eq_zero.1 hz with h | h
      · exact_mod_cast h
      · exact absurd h (zpow_pos (by norm_num) _).ne'
    subst hm0
    rw [hz]
    simp only [mul_zero, Int.floor_zero]
    refine ⟨?_, by decide⟩
    have hfl : (if 0 ≤ e then (whole 0 e : Int) else ((0 + 2 ^ (-e).toNat - 1) / 2 ^ (-e).toNat : Nat)) = 0 := by
      split
      · simp [whole]
      · have hp : 0 < 2 ^ (-e).toNat := by positivity
        have : (0 + 2 ^ (-e).toNat - 1) / 2 ^ (-e).toNat = 0 := Nat.div_eq_of_lt (by omega)
        rw [this]; rfl
    have hni : numInteger (.dbl addr (.fin true 0 e)) =
        (if 0 ≤ -(if 0 ≤ e then (whole 0 e : Int) else ((0 + 2 ^ (-e).toNat - 1) / 2 ^ (-e).toNat : Nat)) ∧
          -(if 0 ≤ e then (whole 0 e : Int) else ((0 + 2 ^ (-e).toNat - 1) / 2 ^ (-e).toNat : Nat)) < 2 ^ 64
         then Out.int (pnNum (-(if 0 ≤ e then (whole 0 e : Int) else ((0 + 2 ^ (-e).toNat - 1) / 2 ^ (-e).toNat : Nat)))) else .undef) := rfl
    rw [hni, hfl]
    decide

/-- **C75 (`double`).** `double` of an integer is the nearest double, the same number up to 2⁵³. -/
theorem C75_double {F : Fpu} (hF : Ieee F) {x : Val} (hx : Number x) : Nearest (exact x) (numDouble F x) ∧ (Fine x → value (numDouble F x) = exact x) :=
  operand hF hx

/-- **C75 (`abs`).** -/
theorem C75_abs {addr : PN} {d : Double} (hd : Spec.Finite d) : ∃ r, numAbs' (.dbl addr d) = .dbl r ∧ Spec.Finite r ∧ value r = |value d| := by
  have hz : Spec.Finite zero := by decide
  have hv : value zero = 0 := by simp [value, zero]
  obtain ⟨n, m, e, rfl⟩ := fin_of hd
  have hlt := dlt_value hd hz
  rw [hv] at hlt
  by_cases h : value (.fin n m e) < 0
  · refine ⟨.fin (!n) m e, by simp only [numAbs', hlt, h, decide_true, if_true], hd, ?_⟩
    rw [abs_of_neg h, value_fin, value_fin]; cases n <;> simp
  · refine ⟨.fin n m e, ?_, hd, (abs_of_nonneg (not_lt.1 h)).symm⟩
    simp only [numAbs', hlt, h, decide_false, Bool.false_eq_true, if_false]

/-! ### Where it fails -/

def one : Double := .fin false (2 ^ 52) (-52)
theorem one_value : value one = 1 := by simp [value, one]; norm_num

/-- **C75 refuted (`==`).** `1 == 1.0` is false, though neither is less than the other: `<=` and `>=` hold. -/
theorem C75_refuted_equal {F : Fpu} (hF : Ieee F) (addr : PN) : vmEq (.int (pnNum 1)) (.dbl addr one) = false ∧
    vmEq (.dbl addr one) (.int (pnNum 1)) = false ∧ exact (.int (pnNum 1)) = exact (.dbl addr one) ∧
    vmCompare F .le (.int (pnNum 1)) (.dbl addr one) = .bool true ∧ vmCompare F .ge (.int (pnNum 1)) (.dbl addr one) = .bool true := by
  have h1 : pnInt (pnNum 1) = 1 := by decide
  have he : exact (.int (pnNum 1)) = 1 := by show ((pnInt (pnNum 1) : ℤ) : ℚ) = 1; rw [h1]; norm_num
  have hv : exact (.dbl addr one) = 1 := one_value
  have hf : Fine (.int (pnNum 1)) := by show |pnInt (pnNum 1)| ≤ 2 ^ 53; decide
  refine ⟨rfl, rfl, by rw [he, hv], ?_, ?_⟩
  · rw [C75_compare hF .le (x := .int (pnNum 1)) (y := .dbl addr one) (by show isInt _ = true; decide) (by show Spec.Finite one; decide) (fun h => h) hf trivial, he, hv]
    simp [holds]
  · rw [C75_compare hF .ge (x := .int (pnNum 1)) (y := .dbl addr one) (by show isInt _ = true; decide) (by show Spec.Finite one; decide) (fun h => h) hf trivial, he, hv]
    simp [holds]

/-- **C75 refuted (comparison, large integers).** 2⁵⁴+1 is not greater than 2⁵⁴ as a double. -/
theorem C75_refuted_order {F : Fpu} (hF : Ieee F) (addr : PN) :
    exact (.int (pnNum (2 ^ 54 + 1))) > exact (.dbl addr (.fin false (2 ^ 52) 2)) ∧
    vmCompare F .gt (.int (pnNum (2 ^ 54 + 1))) (.dbl addr (.fin false (2 ^ 52) 2)) = .bool false := by
  have h1 : pnInt (pnNum (2 ^ 54 + 1)) = 2 ^ 54 + 1 := by decide
  have hv : value (.fin false (2 ^ 52) 2) = 2 ^ 54 := by simp [value]; norm_num
  refine ⟨?_, ?_⟩
  · show ((pnInt (pnNum (2 ^ 54 + 1)) : ℤ) : ℚ) > value _
    rw [h1, hv]; norm_num
  · have hn := hF.ofLong (2 ^ 54 + 1) (by unfold FitsLong; decide)
    have hfin : Spec.Finite (.fin false (2 ^ 52) 2) := by decide
    have h2 := hn.2 _ hfin
    have hc1 : (((2 ^ 54 + 1 : ℤ)) : ℚ) = 2 ^ 54 + 1 := by norm_num
    rw [hv, hc1] at h2
    have hle : value (F.ofLong (2 ^ 54 + 1)) ≤ 2 ^ 54 := by
      by_contra hc
      have hc := not_le.1 hc
      -- at least 2^54, so a multiple of 4
      have h3 : value (F.ofLong (2 ^ 54 + 1)) ≤ 2 ^ 54 + 2 := by
        have : |(2 : ℚ) ^ 54 + 1 - 2 ^ 54| = 1 := by norm_num
        rw [this] at h2
        have := (abs_le.1 h2).1
        linarith
      obtain ⟨n, m, e, hd⟩ := fin_of hn.1
      have hf := hn.1
      rw [hd] at hf hc h3
      obtain ⟨f1, f2, f3, f4⟩ := hf
      rw [value_fin] at hc h3
      have hm := mag_nonneg m e
      cases n
      · simp only [Bool.false_eq_true, if_false, one_mul] at hc h3
        have he : 2 ≤ e := by
          by_contra hlt
          have a1 : (m : ℚ) ≤ 2 ^ 53 := by exact_mod_cast f1.le
          have a2 : (2 : ℚ) ^ e ≤ 2 ^ (1 : ℤ) := zpow_le_zpow_right₀ (by norm_num) (by omega)
          have : mag m e ≤ 2 ^ 53 * 2 ^ (1 : ℤ) := mul_le_mul a1 a2 (zpow_nonneg (by norm_num) e) (by norm_num)
          norm_num at this hc
          linarith
        have hk : mag m e = ((m * 2 ^ (e - 2).toNat : Nat) : ℚ) * 4 := by
          have : (2 : ℚ) ^ e = 2 ^ (e - 2).toNat * 4 := by
            have h4 : (4 : ℚ) = 2 ^ (2 : ℤ) := by norm_num
            rw [h4, ← zpow_natCast, ← zpow_add₀ (by norm_num)]; congr 1; omega
          unfold mag; rw [this]; push_cast; ring
        rw [hk] at hc h3
        generalize m * 2 ^ (e - 2).toNat = k at hc h3
        have c1 : (2 ^ 54 : Nat) < k * 4 := by exact_mod_cast hc
        have c2 : k * 4 ≤ 2 ^ 54 + 2 := by exact_mod_cast h3
        omega
      · simp only [if_true] at hc
        norm_num at hc
        linarith
    show Out.bool (dcmp .gt (F.ofLong (pnInt (pnNum (2 ^ 54 + 1)))) (.fin false (2 ^ 52) 2)) = _
    rw [h1, dcmp_value hn.1 hfin, hv]
    simp only [holds, decide_eq_false (not_lt.2 hle), gt_iff_lt]

/-- **C75 refuted (remainder).** The remainder of 2⁵² by 1.0 is undefined: the quotient does not fit an `int`. -/
theorem C75_refuted_rem {F : Fpu} (hF : Ieee F) (a b : PN) : vmArith F .rem (.dbl a (.fin false (2 ^ 52) 0)) (.dbl b one) = .undef := by
  have hv : value (.fin false (2 ^ 52) 0) = 2 ^ 52 := by simp [value]; norm_num
  have hf : Spec.Finite (.fin false (2 ^ 52) 0) := by decide
  have hn := hF.div _ _ hf (show Spec.Finite one by decide) (by rw [one_value]; norm_num) (by
    rw [hv, one_value, div_one, abs_of_pos (by norm_num)]
    exact pow_lt_pow_right₀ (by norm_num) (by norm_num))
  rw [hv, one_value, div_one] at hn
  have h1 := nearest_exact hn hf hv
  have h2 : F.div (.fin false (2 ^ 52) 0) one = .fin false (2 ^ 52) 0 := value_inj hn.1 hf (by rw [h1, hv]) (by rw [h1]; norm_num)
  show numMath F .rem (.fin false (2 ^ 52) 0) one = .undef
  simp only [numMath, h2]
  rfl

/-- **C75 refuted (shifts).** Shifting a double, or by a double, gives zero. -/
theorem C75_refuted_shift (F : Fpu) (a : PN) (d : Double) (w : PN) :
    vmArith F .shl (.dbl a d) (.int w) = .dbl zero ∧ vmArith F .shr (.int w) (.dbl a d) = .dbl zero := ⟨rfl, rfl⟩

/-- **C75 refuted (`**`, `<=>`).** In the interpreter `**` and `<=>` of doubles do not depend on the numbers but on where they are stored. -/
theorem C75_refuted_pow (F : Fpu) (a : PN) (d d' : Double) (y : Val) :
    vmPow F (.dbl a d) y = vmPow F (.dbl a d') y ∧ vmPow F y (.dbl a d) = vmPow F y (.dbl a d') ∧
    vmOrder (.dbl a d) y = vmOrder (.dbl a d') y ∧ vmOrder y (.dbl a d) = vmOrder y (.dbl a d') := ⟨rfl, rfl, rfl, rfl⟩

/-- **C75 refuted (`cmp`).** `cmp` of a double reads a null pointer; `1 cmp(1.5)` answers 1, as if 1 were greater. -/
theorem C75_refuted_cmp (a : PN) (d : Double) (y : Val) :
    numCmp' (.dbl a d) y = .undef ∧ numCmp' (.int (pnNum 1)) (.dbl a (.fin false (3 * 2 ^ 51) (-52))) = .int (pnNum 1) := ⟨rfl, rfl⟩

/-- **C75 refuted (`integer`).** `integer` of −1.5 is undefined. -/
theorem C75_refuted_integer (a : PN) : numInteger (.dbl a (.fin true (3 * 2 ^ 51) (-52))) = .undef := rfl

/-! ### The hypotheses are met -/

/-- There is such a floating point unit. -/
theorem ieee_exists : ∃ F, Ieee F := by
  classical
  exact ⟨⟨fun i => (nearest_exists i).choose, fun a b => (nearest_exists (value a + value b)).choose, fun a b => (nearest_exists (value a - value b)).choose,
    fun a b => (nearest_exists (value a * value b)).choose, fun a b => (nearest_exists (value a / value b)).choose, fun a _ => a⟩,
    ⟨fun i _ => (nearest_exists (i : ℚ)).choose_spec, fun a b _ _ _ => (nearest_exists (value a + value b)).choose_spec,
     fun a b _ _ _ => (nearest_exists (value a - value b)).choose_spec, fun a b _ _ _ => (nearest_exists (value a * value b)).choose_spec,
     fun a b _ _ _ _ => (nearest_exists (value a / value b)).choose_spec⟩⟩

def half : Double := .fin false (2 ^ 52) (-53)

/-- `3 * 0.5` is 1.5, and `7 % 2.0` is 1.0. -/
example {F : Fpu} (hF : Ieee F) (a : PN) : ∃ r, vmArith F .mul (.int (pnNum 3)) (.dbl a half) = .dbl r ∧ value r = value (.fin false (3 * 2 ^ 51) (-52)) :=
  C75_exact hF (x := .int (pnNum 3)) (by show isInt _ = true; decide) (show Number (.dbl a half) from (by decide : Spec.Finite half)) (fun h => h) (by show |pnInt (pnNum 3)| ≤ 2 ^ 53; decide) trivial (by decide)
    (by
      have h1 : pnInt (pnNum 3) = 3 := by decide
      have e1 : exact (.int (pnNum 3)) = 3 := by show ((pnInt (pnNum 3) : ℤ) : ℚ) = 3; rw [h1]; norm_num
      have e2 : exact (.dbl a half) = 1 / 2 := by show value half = 1 / 2; simp [value, half]; norm_num
      rw [e1, e2]; simp [apply, value]; norm_num)
    (by
      have : value (.fin false (3 * 2 ^ 51) (-52)) = 3 / 2 := by simp [value]; norm_num
      rw [this, abs_of_pos (by norm_num)]
      exact lt_trans (by norm_num : (3 / 2 : ℚ) < 2 ^ 1) (pow_lt_pow_right₀ (by norm_num) (by norm_num)))

def two : Double := .fin false (2 ^ 52) (-51)

example {F : Fpu} (hF : Ieee F) (a : PN) : ∃ r, vmArith F .rem (.int (pnNum 7)) (.dbl a two) = .dbl r ∧ value r = (1 : Int) :=
  C75_rem_partial hF (x := .int (pnNum 7)) (i := 7) (j := 2) (by show isInt _ = true; decide) (show Number (.dbl a two) from (by decide : Spec.Finite two)) (fun h => h)
    (by have h1 : pnInt (pnNum 7) = 7 := by decide
        show ((pnInt (pnNum 7) : ℤ) : ℚ) = _; rw [h1])
    (by show value two = _; simp [value, two]; norm_num) (by decide) (by decide) (by decide) (by decide)

end Potion.Mixed
