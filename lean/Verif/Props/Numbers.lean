import Verif.Proof.Number
/-! Properties C01, C02, C03, C04, C30 and C43: integers. -/
namespace Potion.Props
open Potion Spec

/-! ### C01 boxing -/

/-- C01: boxing then unboxing an in-range integer is the identity, and the boxed word denotes that integer. -/
theorem C01_box_unbox (i : Int) (h : InRange i) : pnInt (pnNum i) = i ∧ Denotes (pnNum i) i :=
  ⟨pnInt_pnNum_of_fits h, denotes_pnNum h⟩

example : InRange (-(2^62)) ∧ InRange (2^62 - 1) ∧ pnInt (pnNum (-(2^62))) = -(2^62) := by decide

/-- C01: unboxing then boxing an integer word is the identity (no two representations of one integer). -/
theorem C01_unbox_box (w : PN) (h : isInt w = true) : pnNum (pnInt w) = w ∧ InRange (pnInt w) :=
  ⟨pnNum_pnInt h, pnInt_fits w⟩

example : isInt (pnNum (-5)) = true := by decide

/-- C01: a boxed integer is classified as a number and as nothing else, whatever the integer. -/
theorem C01_class_of_int (i : Int) :
    wordClass (pnNum i) = .number ∧ isPtr (pnNum i) = false ∧ isNil (pnNum i) = false ∧
    pnNum i ≠ PN_TRUE ∧ pnNum i ≠ PN_FALSE ∧ pnTest (pnNum i) = true := by
  have h := isInt_pnNum i
  have hn : ∀ v : PN, isInt v = false → pnNum i ≠ v := by
    intro v hv e; rw [e, hv] at h; cases h
  refine ⟨?_, ?_, ?_, hn _ (by decide), hn _ (by decide), ?_⟩
  · simp [wordClass, h]
  · simp [isPtr, h]
  · simp only [isNil, beq_eq_false_iff_ne]; exact hn _ (by decide)
  · simp only [pnTest, Bool.and_eq_true, bne_iff_ne]; exact ⟨hn _ (by decide), hn _ (by decide)⟩

/-- C01: the four immediates and 8-aligned pointers fall in pairwise different classes as documented; the only false
values are `nil` and `false`. -/
theorem C01_classes (v : PN) :
    (wordClass v = .number ↔ v.toNat % 2 = 1) ∧
    (wordClass v = .nil ↔ v = 0#64) ∧
    (v.toNat % 8 = 0 → v ≠ 0#64 → wordClass v = .object ∧ isPtr v = true) ∧
    (pnTest v = false ↔ v = PN_NIL ∨ v = PN_FALSE) := by
  have hi := isInt_iff v
  refine ⟨?_, ?_, ?_, ?_⟩
  · unfold wordClass
    cases h : isInt v <;> simp_all <;> (repeat' split) <;> simp
  · unfold wordClass
    constructor
    · intro h
      split at h
      · cases h
      · split at h
        · cases h
        · split at h
          · rename_i h3; simpa [isNil, PN_NIL] using h3
          · cases h
    · rintro rfl; decide
  · intro h8 h0
    have h1 : isInt v = false := by
      cases h : isInt v
      · rfl
      · have := hi.1 h; omega
    have h7 : v &&& 7#64 = 0#64 := by
      apply BitVec.eq_of_toNat_eq
      simp only [BitVec.toNat_and, BitVec.toNat_ofNat]
      have : v.toNat &&& 7 = v.toNat % 8 := Nat.and_two_pow_sub_one_eq_mod v.toNat 3
      simp [this, h8]
    have h2 : isBool v = false := by
      have h2' : v &&& 2#64 = 0#64 := by
        have e : v &&& 2#64 = (v &&& 7#64) &&& 2#64 := by rw [BitVec.and_assoc]; rfl
        rw [e, h7]; rfl
      simp [isBool, h2']
    have h3 : isNil v = false := by simp [isNil, PN_NIL, h0]
    refine ⟨by simp [wordClass, h1, h2, h3], ?_⟩
    have h4 : v &&& ~~~7#64 ≠ 0#64 := by
      intro h
      apply h0
      have e : v = (v &&& 7#64) ||| (v &&& ~~~7#64) := by
        rw [← BitVec.and_or_distrib_left]
        have : (7#64 ||| ~~~7#64) = BitVec.allOnes 64 := by decide
        rw [this, BitVec.and_allOnes]
      rw [e, h, h7]; rfl
    simp only [isPtr, h1, Bool.not_false, Bool.true_and, bne_iff_ne]
    exact h4
  · simp only [pnTest, Bool.and_eq_false_iff, bne_eq_false_iff_eq]
    exact Or.comm

example : (0x7f00deadbee8#64).toNat % 8 = 0 ∧ (0x7f00deadbee8#64) ≠ 0#64 := by decide

/-- C01: integer identity is numeric equality. -/
theorem C01_eq_iff (a b : Int) (ha : InRange a) (hb : InRange b) : pnNum a = pnNum b ↔ a = b := pnNum_inj ha hb

/-! ### C02 integer methods -/

/-- The script-visible name of an operator. -/
def opName : AOp → Spec.Op
  | .add => .plus | .sub => .minus | .mul => .times | .div => .over | .rem => .mod | .shl => .shl | .shr => .shr

/-- C02: exactly these operand pairs have no defined result. -/
theorem C02_undefined_iff (op : AOp) (wa wb : PN) (a b : Int) (ha : Denotes wa a) (hb : Denotes wb b) :
    numMeth op wa wb = none ↔
      (op = .mul ∧ ¬ (-(2^63) ≤ a * b ∧ a * b < 2^63)) ∨
      ((op = .div ∨ op = .rem) ∧ b = 0) ∨
      ((op = .shl ∨ op = .shr) ∧ ¬ (0 ≤ b ∧ b < 64)) := by
  have ra := ha.inRange
  have rb := hb.inRange
  have ea := ((denotes_iff _ _).1 ha).2
  have eb := ((denotes_iff _ _).1 hb).2
  simp only [numMeth, ea, eb, Option.map_eq_none_iff]
  unfold InRange at ra rb
  have hq : b ≠ 0 → FitsLong (Int.tdiv a b) := by
    intro _
    have h1 : (Int.tdiv a b).natAbs ≤ a.natAbs := by
      rw [Int.natAbs_tdiv]; exact Nat.div_le_self _ _
    unfold FitsLong; omega
  cases op <;> simp only [cArith, defined, reduceCtorEq, false_and, or_false, false_or, true_and, or_self]
  · have : FitsLong (a + b) := by unfold FitsLong; omega
    simp [this]
  · have : FitsLong (a - b) := by unfold FitsLong; omega
    simp [this]
  · by_cases h : FitsLong (a * b)
    · rw [if_pos h]; unfold FitsLong at h; simp only [reduceCtorEq, false_iff, Decidable.not_not]; exact h
    · rw [if_neg h]; unfold FitsLong at h; simp only [true_iff]; exact h
  · by_cases h : b = 0
    · simp [h]
    · simp [h, hq h]
  · by_cases h : b = 0
    · simp [h]
    · simp [h, hq h]
  · simp
  · simp

example : Denotes (pnNum 7) 7 ∧ Denotes (pnNum (-3)) (-3) := by decide

theorem tdiv_unique {a b q r : Int} (hb : b ≠ 0) (h : a = b * q + r) (hr : r.natAbs < b.natAbs) (hs : 0 ≤ r * a) :
    Int.tdiv a b = q ∧ Int.tmod a b = r := by
  have key : r = Int.tmod a b := by
    have hd : (b : Int) ∣ (a - r) := ⟨q, by omega⟩
    have hd2 : (b : Int) ∣ (a - Int.tmod a b) := ⟨Int.tdiv a b, by have := Int.mul_tdiv_add_tmod a b; omega⟩
    have hd3 : b ∣ (Int.tmod a b - r) := by
      have := Int.dvd_sub hd hd2
      have e : a - r - (a - Int.tmod a b) = Int.tmod a b - r := by omega
      rwa [e] at this
    have hb2 : (Int.tmod a b).natAbs < b.natAbs := by
      rw [Int.natAbs_tmod]; exact Nat.mod_lt _ (by omega)
    -- sign agreement
    have hsg : 0 ≤ Int.tmod a b * a := by
      rcases Int.le_total 0 a with h0 | h0
      · exact Int.mul_nonneg (Int.tmod_nonneg b h0) h0
      · have : Int.tmod a b ≤ 0 := by
          have := Int.tmod_nonneg (a := -a) b (by omega)
          rw [Int.neg_tmod] at this
          omega
        exact Int.mul_nonneg_of_nonpos_of_nonpos this h0
    by_cases ha : a = 0
    · subst ha
      simp only [Int.zero_tmod] at *
      have h1 : b ∣ r := by simpa using (Int.dvd_neg.2 hd3)
      rcases Int.eq_zero_of_dvd_of_natAbs_lt_natAbs h1 hr with h2
      exact h2
    · have same : (Int.tmod a b - r).natAbs < b.natAbs := by
        rcases Int.lt_or_gt_of_ne ha with h0 | h0
        · have h1 : r ≤ 0 := by
            rcases Int.le_total r 0 with hh | hh
            · exact hh
            · by_cases hz : r = 0
              · omega
              · have := Int.mul_neg_of_pos_of_neg (show 0 < r by omega) h0; omega
          have h2 : Int.tmod a b ≤ 0 := by
            rcases Int.le_total (Int.tmod a b) 0 with hh | hh
            · exact hh
            · by_cases hz : Int.tmod a b = 0
              · omega
              · have := Int.mul_neg_of_pos_of_neg (show 0 < Int.tmod a b by omega) h0; omega
          omega
        · have h1 : 0 ≤ r := by
            rcases Int.le_total 0 r with hh | hh
            · exact hh
            · by_cases hz : r = 0
              · omega
              · have := Int.mul_neg_of_neg_of_pos (show r < 0 by omega) h0; omega
          have h2 : 0 ≤ Int.tmod a b := Int.tmod_nonneg b (by omega)
          omega
      have := Int.eq_zero_of_dvd_of_natAbs_lt_natAbs hd3 same
      omega
  refine ⟨?_, key.symm⟩
  have h1 := Int.mul_tdiv_add_tmod a b
  have h2 : b * Int.tdiv a b = b * q := by omega
  exact Int.eq_of_mul_eq_mul_left hb h2

/-- C02: whenever the result is defined it is the exact mathematical result wrapped modulo 2^63. -/
theorem C02_methods_exact_mod (op : AOp) (wa wb w : PN) (a b r : Int) (ha : Denotes wa a) (hb : Denotes wb b)
    (he : Exact (opName op) a b r) (hw : numMeth op wa wb = some w) :
    ∀ v, Denotes w v ↔ WrapsTo r v := by
  have ra := ha.inRange
  have rb := hb.inRange
  have ea := ((denotes_iff _ _).1 ha).2
  have eb := ((denotes_iff _ _).1 hb).2
  simp only [numMeth, ea, eb, Option.map_eq_some_iff] at hw
  obtain ⟨c, hc, rfl⟩ := hw
  intro v
  rw [denotes_pnNum_iff]
  cases op <;> simp only [cArith, defined] at hc <;> simp only [opName] at he <;> cases he
  · split at hc <;> simp_all
  · split at hc <;> simp_all
  · split at hc <;> simp_all
  · rename_i r' h2 hb0 h1 h
    have := (tdiv_unique hb0 h h1 h2).1
    rw [if_neg hb0, this] at hc
    split at hc <;> simp_all
  · rename_i q hb0 h2 h1 h
    have := (tdiv_unique hb0 h h1 h2).2
    rw [if_neg hb0, this] at hc
    split at hc <;> simp_all
  · rename_i n
    split at hc
    · simp only [Int.toNat_natCast, Option.some.injEq] at hc
      subst hc
      rw [wrapsTo_iff, wrapsTo_iff]
      simp only [Int.bmod]
      omega
    · cases hc
  · rename_i n r' h1 h2 h
    split at hc
    · simp only [Int.toNat_natCast, Option.some.injEq] at hc
      subst hc
      have hp : (0:Int) < 2 ^ n := Int.pow_pos (by decide)
      have : a / 2 ^ n = r := by
        rw [h, Int.add_comm, Int.add_mul_ediv_left _ _ (by omega), Int.ediv_eq_zero_of_lt h1 h2]; omega
      rw [this]
    · cases hc

/-- C02 corollary: the result is exact whenever the exact result is in range. -/
theorem C02_methods_exact (op : AOp) (wa wb w : PN) (a b r : Int) (ha : Denotes wa a) (hb : Denotes wb b)
    (he : Exact (opName op) a b r) (hw : numMeth op wa wb = some w) (hr : InRange r) : Denotes w r :=
  (C02_methods_exact_mod op wa wb w a b r ha hb he hw r).2 ⟨hr, ⟨0, by omega⟩⟩

example : ∃ w, numMeth .div (pnNum (-7)) (pnNum 2) = some w ∧ Exact (opName .div) (-7) 2 (-3) ∧ Denotes w (-3) :=
  ⟨pnNum (-3), by decide, .div (-7) 2 (-3) (-1) (by decide) (by decide) (by decide) (by decide), by decide⟩

/-- C02: the only division that leaves the range wraps (no trap). -/
example : numMeth .div (pnNum (-(2^62))) (pnNum (-1)) = some (pnNum (-(2^62))) := by decide

/-- C02: bitwise complement is exact for every integer. -/
theorem C02_bitn (w : PN) (a : Int) (h : Denotes w a) : Denotes (numBitn w) (-a - 1) := by
  have r := h.inRange
  unfold numBitn
  rw [((denotes_iff _ _).1 h).2]
  apply denotes_pnNum
  unfold InRange at *; omega

/-- C02: `abs` is exact except for the least integer, which maps to itself. -/
theorem C02_abs (w : PN) (a : Int) (h : Denotes w a) :
    (a ≠ -(2^62) → Denotes (numAbs w) a.natAbs) ∧ (a = -(2^62) → Denotes (numAbs w) a) := by
  have r := h.inRange
  unfold numAbs
  rw [((denotes_iff _ _).1 h).2]
  constructor
  · intro h1
    apply denotes_pnNum
    unfold InRange at *; omega
  · rintro rfl; decide

example : Denotes (pnNum (-(2^62))) (-(2^62)) := by decide

/-- C02: `cmp` returns the sign of the comparison as an integer. -/
theorem C02_cmp (wa wb : PN) (a b : Int) (ha : Denotes wa a) (hb : Denotes wb b) :
    Denotes (numCmp wa wb) (if a < b then -1 else if a = b then 0 else 1) := by
  unfold numCmp
  simp only [((denotes_iff _ _).1 ha).2, ((denotes_iff _ _).1 hb).2]
  split
  · decide
  · split <;> decide

/-! ### C03 interpreter operators never wrap silently -/

/-- The exact integer meant by `+`, `-`, `*`. -/
def exact3 : AOp → Int → Int → Int
  | .add, a, b => a + b
  | .sub, a, b => a - b
  | _, a, b => a * b

/-- C03: `+`, `-`, `*` in the interpreter give the exact integer if it is representable and otherwise the double
result of the double operation on both operands. -/
theorem C03_vm_no_wrap {D : Type} (ofLong : Int → D) (dblOp : D → D → D) (op : AOp)
    (hop : op = .add ∨ op = .sub ∨ op = .mul) (wa wb : PN) (a b : Int) (ha : Denotes wa a) (hb : Denotes wb b) :
    (InRange (exact3 op a b) →
      ∃ w, vmMath3 op ofLong dblOp wa wb = .imm w ∧ Denotes w (exact3 op a b)) ∧
    (¬ InRange (exact3 op a b) →
      vmMath3 op ofLong dblOp wa wb = .dbl (dblOp (ofLong a) (ofLong b))) := by
  have ea := ((denotes_iff _ _).1 ha).2
  have eb := ((denotes_iff _ _).1 hb).2
  have hmax : pnInt LONG_MAX = 2^62 - 1 := by decide
  have hmin : pnInt LONG_MIN = -(2^62) := by decide
  have hx : (builtinOverflow op a b) =
      (!decide (FitsLong (exact3 op a b)), Int.bmod (exact3 op a b) (2^64)) := by
    rcases hop with rfl | rfl | rfl <;> rfl
  simp only [vmMath3, ea, eb, hmax, hmin, hx]
  generalize exact3 op a b = x
  by_cases hf : FitsLong x
  · have hbm : Int.bmod x (2^64) = x := by
      unfold FitsLong at hf; simp only [Int.bmod]; omega
    rw [hbm]
    simp only [hf, decide_true, Bool.not_true, Bool.false_or, Bool.or_eq_true, decide_eq_true_eq]
    constructor
    · intro hr
      rw [if_neg (by unfold InRange at hr; omega)]
      exact ⟨_, rfl, denotes_pnNum hr⟩
    · intro hr
      rw [if_pos (by unfold InRange at hr; omega)]
  · simp only [hf, decide_false, Bool.not_false, Bool.true_or, if_true]
    refine ⟨?_, fun _ => trivial⟩
    intro hr
    exact absurd (show FitsLong x by unfold InRange at hr; unfold FitsLong; omega) hf

example : ¬ InRange (exact3 .add (2^62 - 1) 1) ∧ InRange (exact3 .mul (-(2^31)) (2^31)) := by decide

/-- C03 negative: `/` in the interpreter does wrap, for exactly one quotient. -/
theorem C03_div_wraps_counterexample :
    ∃ wa wb w, Denotes wa (-(2^62)) ∧ Denotes wb (-1) ∧ vmMath2 .div wa wb = some w ∧ Denotes w (-(2^62)) :=
  ⟨pnNum (-(2^62)), pnNum (-1), pnNum (-(2^62)), by decide⟩

/-! ### C04 comparisons -/

/-- C04, JIT: the compiled comparison is the numeric relation for all integers. -/
theorem C04_jit_compare (c : COp) (wa wb : PN) (a b : Int) (ha : Denotes wa a) (hb : Denotes wb b) :
    jitNumCmp c wa wb = pnBool (c.rel a b) := by
  unfold Denotes at ha hb
  unfold jitNumCmp COp.rel
  rw [ha, hb]
  congr 1
  cases c <;> simp <;> omega

example : Denotes (pnNum (-1)) (-1) ∧ jitNumCmp .lt (pnNum (-1)) (pnNum 0) = PN_TRUE := by decide

/-- C04 is FALSE of the interpreter: `-1 < 0` evaluates to false (unsigned comparison of tagged words). -/
theorem C04_interpreter_compare_refuted :
    ∃ wa wb : PN, Denotes wa (-1) ∧ Denotes wb 0 ∧ vmNumCmp .lt wa wb = PN_FALSE ∧ vmNumCmp .gt wa wb = PN_TRUE :=
  ⟨pnNum (-1), pnNum 0, by decide⟩

theorem toNat_of_denotes {w : PN} {a : Int} (h : Denotes w a) :
    (w.toNat : Int) = if 0 ≤ a then 2 * a + 1 else 2 * a + 1 + 2^64 := by
  unfold Denotes at h
  rw [BitVec.toInt_eq_toNat_bmod] at h
  simp only [Int.bmod] at h
  split <;> omega

/-- C04, interpreter, exact characterisation: the interpreter's comparison is the numeric relation exactly when the
operands have the same sign. -/
theorem C04_interpreter_compare_iff (c : COp) (wa wb : PN) (a b : Int) (ha : Denotes wa a) (hb : Denotes wb b) :
    vmNumCmp c wa wb = pnBool (c.rel a b) ↔ (0 ≤ a ↔ 0 ≤ b) := by
  have h1 := toNat_of_denotes ha
  have h2 := toNat_of_denotes hb
  have ra := ha.inRange
  have rb := hb.inRange
  unfold InRange at ra rb
  have inj : ∀ x y : Bool, pnBool x = pnBool y ↔ x = y := by decide
  unfold vmNumCmp COp.rel
  rw [inj]
  cases c <;> simp only [decide_eq_decide] <;> (split at h1 <;> split at h2 <;> omega)

/-- C04 partial: for operands of the same sign (in particular for non-negative integers) the interpreter is right.
Missing from the full property: operands of different sign, where the claim is false. -/
theorem C04_interpreter_compare_partial (c : COp) (wa wb : PN) (a b : Int) (ha : Denotes wa a) (hb : Denotes wb b)
    (hs : 0 ≤ a ↔ 0 ≤ b) : vmNumCmp c wa wb = pnBool (c.rel a b) :=
  (C04_interpreter_compare_iff c wa wb a b ha hb).2 hs

example : Denotes (pnNum (-3)) (-3) ∧ Denotes (pnNum (-9)) (-9) ∧ ((0:Int) ≤ -3 ↔ (0:Int) ≤ -9) := by decide

/-! ### C30 iteration -/

theorem timesLoop_spec (n : Nat) (i : Int) :
    timesLoop (n+1) i (i + n) = some ((List.range n).map (fun k : Nat => i + (k : Int)), i + n) := by
  induction n generalizing i with
  | zero => simp [timesLoop]
  | succ n ih =>
    have e : i + ((n + 1 : Nat) : Int) = (i + 1) + n := by omega
    rw [timesLoop, if_pos (by omega), e, ih (i+1)]
    simp only [Option.map_some, List.range_succ_eq_map, List.map_cons, List.map_map]
    congr 2
    simp only [List.cons.injEq]
    refine ⟨by simp, ?_⟩
    apply List.map_congr_left
    intro a _
    simp only [Function.comp]
    omega

/-- C30 `times`: the block is called exactly with 0, 1, ..., n-1 in this order and the result is the call count;
for `n ≤ 0` it is not called. -/
theorem C30_times (w : PN) (n : Int) (h : Denotes w n) :
    ∃ fuel calls ret, intTimes fuel w = some (calls, ret) ∧ calls.length = n.toNat ∧
      (∀ k (hk : k < calls.length), Denotes calls[k] k) ∧ Denotes ret n.toNat := by
  have hr := h.inRange
  have e := ((denotes_iff _ _).1 h).2
  unfold InRange at hr
  refine ⟨n.toNat + 1, (List.range n.toNat).map (fun k : Nat => pnNum (k : Int)), pnNum n.toNat, ?_, ?_, ?_, ?_⟩
  · unfold intTimes
    rw [e]
    by_cases hn : 0 ≤ n
    · have := timesLoop_spec n.toNat 0
      have e2 : (0:Int) + (n.toNat : Int) = n := by omega
      rw [e2] at this
      rw [this]
      simp only [Option.map_some, List.map_map]
      congr 2
      · apply List.map_congr_left; intro a _; simp
      · congr 1; omega
    · have : n.toNat = 0 := by omega
      rw [this, timesLoop, if_neg (by omega)]
      simp
  · simp
  · intro k hk
    simp only [List.getElem_map, List.getElem_range]
    simp at hk
    apply denotes_pnNum
    unfold InRange; omega
  · apply denotes_pnNum; unfold InRange; omega

example : Denotes (pnNum 3) 3 ∧ intTimes 4 (pnNum 3) = some ([pnNum 0, pnNum 1, pnNum 2], pnNum 3) := by decide

theorem toLoop_up (n : Nat) (i s : Int) (hs : s = 1 ∨ s = -1) :
    toLoop (n+1) i (i + n * s) s = some ((List.range n).map (fun k : Nat => i + (k : Int) * s), i + n * s) := by
  induction n generalizing i with
  | zero => simp [toLoop]
  | succ n ih =>
    have e : i + ((n + 1 : Nat) : Int) * s = (i + s) + n * s := by
      rw [Int.natCast_add, Int.add_mul]; simp; omega
    have hne : i ≠ i + s + n * s := by
      rcases hs with rfl | rfl <;> omega
    rw [e, toLoop, if_pos hne, ih]
    simp only [Option.map_some, List.range_succ_eq_map, List.map_cons, List.map_map]
    congr 2
    simp only [List.cons.injEq]
    refine ⟨by simp, ?_⟩
    apply List.map_congr_left
    intro a _
    simp only [Function.comp, Nat.succ_eq_add_one, Int.natCast_add, Int.add_mul]
    simp; omega

/-- C30 `to`: counts from `a` to `b` inclusive, upwards or downwards, calling the block once per integer in order; the
result is the number of calls. -/
theorem C30_to (wa wb : PN) (a b : Int) (ha : Denotes wa a) (hb : Denotes wb b) :
    ∃ fuel calls ret, intTo fuel wa wb = some (calls, ret) ∧ calls.length = (b - a).natAbs + 1 ∧
      (∀ k (hk : k < calls.length), Denotes calls[k] (if a ≤ b then a + k else a - k)) ∧
      ((b - a).natAbs + 1 < 2^62 → Denotes ret ((b - a).natAbs + 1)) := by
  have ra := ha.inRange
  have rb := hb.inRange
  have ea := ((denotes_iff _ _).1 ha).2
  have eb := ((denotes_iff _ _).1 hb).2
  unfold InRange at ra rb
  have hs : (if b < a then (-1:Int) else 1) = 1 ∨ (if b < a then (-1:Int) else 1) = -1 := by split <;> simp
  have hsv : ∀ s : Int, s = (if b < a then (-1:Int) else 1) →
      b + s = a + (((b - a).natAbs + 1 : Nat) : Int) * s ∧
      ∀ k : Nat, a + (k:Int) * s = if a ≤ b then a + k else a - k := by
    intro s h
    split at h <;> subst h
    · refine ⟨by omega, fun k => ?_⟩; rw [if_neg (by omega)]; omega
    · refine ⟨by omega, fun k => ?_⟩; rw [if_pos (by omega)]; omega
  obtain ⟨h1, h2⟩ := hsv _ rfl
  refine ⟨(b - a).natAbs + 1 + 1, (List.range ((b - a).natAbs + 1)).map (fun k : Nat => pnNum (if a ≤ b then a + (k:Int) else a - k)),
    pnNum (((b - a).natAbs + 1 : Nat) : Int), ?_, by simp, ?_, ?_⟩
  · unfold intTo
    simp only [ea, eb]
    rw [h1, toLoop_up _ _ _ hs]
    simp only [Option.map_some, List.map_map]
    congr 2
    · apply List.map_congr_left; intro k _; simp only [Function.comp]; rw [h2]
    · congr 1
      rcases hs with h | h <;> rw [h] <;> omega
  · intro k hk
    simp only [List.getElem_map, List.getElem_range]
    simp at hk
    apply denotes_pnNum
    unfold InRange; split <;> omega
  · intro hlt
    apply denotes_pnNum; unfold InRange; omega

example : Denotes (pnNum 3) 3 ∧ Denotes (pnNum 1) 1 ∧
    intTo 4 (pnNum 3) (pnNum 1) = some ([pnNum 3, pnNum 2, pnNum 1], pnNum 3) := by decide

theorem stepLoop_spec (k : Int) (hk : 0 < k) (hk2 : k < 2^62) (j : Int) (hj : j < 2^62) (m : Nat) :
    ∀ i : Int, -(2^62) ≤ i → (j - i) / k + 1 = m ∨ (j < i ∧ m = 0) →
    stepLoop (m+1) i j k = some ((List.range m).map (fun t : Nat => i + (t : Int) * k), i + m * k) := by
  induction m with
  | zero =>
    intro i hi h
    have : j < i := by
      rcases h with h | h
      · by_cases hh : i ≤ j
        · have := Int.ediv_nonneg (show 0 ≤ j - i by omega) (show 0 ≤ k by omega)
          omega
        · omega
      · exact h.1
    simp [stepLoop]; omega
  | succ m ih =>
    intro i hi h
    have hij : i ≤ j := by
      rcases h with h | h
      · by_cases hh : i ≤ j
        · exact hh
        · have := Int.ediv_neg_of_neg_of_pos (show j - i < 0 by omega) hk
          omega
      · omega
    have h' : (j - i) / k = m := by
      rcases h with h | h <;> omega
    have e : (j - (i + k)) / k = (j - i) / k - 1 := by
      have : j - (i + k) = (j - i) + (-1) * k := by omega
      rw [this, Int.add_mul_ediv_right _ _ (by omega)]; omega
    rw [stepLoop, if_pos hij, if_pos (by unfold FitsLong; omega), ih (i + k) (by omega) (Or.inl (by omega))]
    simp only [Option.map_some, List.range_succ_eq_map, List.map_cons, List.map_map]
    have e3 : i + k + (m:Int) * k = i + ((m + 1 : Nat) : Int) * k := by
      rw [Int.natCast_add, Int.add_mul]; simp; omega
    rw [e3]
    congr 2
    simp only [List.cons.injEq]
    refine ⟨by simp, ?_⟩
    apply List.map_congr_left
    intro a _
    simp only [Function.comp, Nat.succ_eq_add_one, Int.natCast_add, Int.add_mul]
    simp; omega

/-- C30 `step` with a positive step: terminates and calls the block with a, a+c, a+2c, ... exactly as long as the value
does not exceed `b`. -/
theorem C30_step (wa wb wc : PN) (a b c : Int) (ha : Denotes wa a) (hb : Denotes wb b) (hc : Denotes wc c) (hpos : 0 < c) :
    ∃ fuel calls ret, intStep fuel wa wb wc = some (calls, ret) ∧
      (∀ k (hk : k < calls.length), Denotes calls[k] (a + k * c)) ∧
      (∀ k : Nat, k < calls.length ↔ a + k * c ≤ b) := by
  have ra := ha.inRange
  have rb := hb.inRange
  have rc := hc.inRange
  have ea := ((denotes_iff _ _).1 ha).2
  have eb := ((denotes_iff _ _).1 hb).2
  have ec := ((denotes_iff _ _).1 hc).2
  unfold InRange at ra rb rc
  let m : Nat := if a ≤ b then ((b - a) / c + 1).toNat else 0
  have hm : (b - a) / c + 1 = m ∨ (b < a ∧ m = 0) := by
    show (b - a) / c + 1 = ((if a ≤ b then ((b - a) / c + 1).toNat else 0 : Nat) : Int) ∨ _
    by_cases h : a ≤ b
    · left; rw [if_pos h]
      have := Int.ediv_nonneg (show 0 ≤ b - a by omega) (show 0 ≤ c by omega)
      omega
    · right; exact ⟨by omega, if_neg h⟩
  have hs := stepLoop_spec c hpos (by omega) b (by omega) m a (by omega) hm
  have hiff : ∀ k : Nat, k < m ↔ a + k * c ≤ b := by
    intro k
    rcases hm with hm | ⟨h1, h2⟩
    · rw [show (k < m ↔ (k:Int) ≤ (b - a) / c) by omega, Int.le_ediv_iff_mul_le hpos]; omega
    · rw [h2]
      have : 0 ≤ (k:Int) * c := Int.mul_nonneg (by omega) (by omega)
      omega
  refine ⟨m + 1, ((List.range m).map (fun t : Nat => a + (t : Int) * c)).map pnNum, ?_, ?_, ?_, ?_⟩
  · exact pnNum (Int.tdiv (a + m * c - b).natAbs c)
  · unfold intStep
    simp only [ea, eb, ec, hs, Option.bind_some]
    rw [if_neg (by omega)]
  · intro k hk
    simp only [List.length_map, List.length_range] at hk
    simp only [List.getElem_map, List.getElem_range]
    apply denotes_pnNum
    have := (hiff k).1 hk
    have : 0 ≤ (k:Int) * c := Int.mul_nonneg (by omega) (by omega)
    unfold InRange; omega
  · intro k
    simp only [List.length_map, List.length_range]
    exact hiff k

example : intStep 4 (pnNum 1) (pnNum 6) (pnNum 2) = some ([pnNum 1, pnNum 3, pnNum 5], pnNum 0) := by decide

/-- C30 is FALSE for `step` with step ≤ 0: if the range is non-empty the loop never finishes with a defined result,
whatever the budget. -/
theorem C30_step_nonpositive_refuted (wa wb wc : PN) (a b c : Int) (ha : Denotes wa a) (hb : Denotes wb b)
    (hc : Denotes wc c) (hneg : c ≤ 0) (hab : a ≤ b) : ∀ fuel, intStep fuel wa wb wc = none := by
  have ea := ((denotes_iff _ _).1 ha).2
  have eb := ((denotes_iff _ _).1 hb).2
  have ec := ((denotes_iff _ _).1 hc).2
  have key : ∀ fuel (i : Int), i ≤ b → stepLoop fuel i b c = none := by
    intro fuel
    induction fuel with
    | zero => intro i hi; simp [stepLoop, hi]
    | succ n ih =>
      intro i hi
      rw [stepLoop, if_pos hi]
      split
      · rw [ih (i + c) (by omega)]; rfl
      · rfl
  intro fuel
  unfold intStep
  simp only [ea, eb, ec, key fuel a hab, Option.bind_none]

example : Denotes (pnNum 1) 1 ∧ Denotes (pnNum 5) 5 ∧ Denotes (pnNum 0) 0 ∧ (0:Int) ≤ 0 ∧ (1:Int) ≤ 5 := by decide

/-! ### C43 JIT and interpreter agree on integers -/

/-- C43: the JIT's `+` is the exact sum wrapped modulo 2^63 (it never promotes to double). -/
theorem C43_jit_add (wa wb : PN) (a b : Int) (ha : Denotes wa a) (hb : Denotes wb b) :
    ∀ v, Denotes (jitAdd wa wb) v ↔ WrapsTo (a + b) v := by
  have : jitAdd wa wb = pnNum (a + b) := by
    apply BitVec.eq_of_toInt_eq
    rw [pnNum_toInt]
    unfold jitAdd Denotes at *
    rw [BitVec.toInt_sub, BitVec.toInt_add, ha, hb]
    simp only [BitVec.toInt_one (show 1 < 64 by omega), Int.bmod]
    omega
  intro v
  rw [this, denotes_pnNum_iff]

/-- C43: the JIT's `-` is the exact difference wrapped modulo 2^63, and always defined. -/
theorem C43_jit_sub (wa wb : PN) (a b : Int) (ha : Denotes wa a) (hb : Denotes wb b) :
    ∃ w, jitSub wa wb = some w ∧ ∀ v, Denotes w v ↔ WrapsTo (a - b) v := by
  have ra := ha.inRange
  have rb := hb.inRange
  unfold InRange at ra rb
  refine ⟨pnNum (a - b), ?_, fun v => denotes_pnNum_iff _ _⟩
  unfold jitSub
  split
  · rename_i h
    congr 1
    apply BitVec.eq_of_toInt_eq
    rw [pnNum_toInt]
    unfold Denotes FitsLong at *
    rw [BitVec.toInt_add, BitVec.toInt_sub, ha, hb]
    simp only [BitVec.toInt_one (show 1 < 64 by omega), Int.bmod]
    omega
  · unfold numMeth
    rw [((denotes_iff _ _).1 ha).2, ((denotes_iff _ _).1 hb).2]
    have : FitsLong (a - b) := by unfold FitsLong; omega
    simp [cArith, defined, this]

/-- C43: the JIT's `*` is exact whenever the product is in range. -/
theorem C43_jit_mult (wa wb : PN) (a b : Int) (ha : Denotes wa a) (hb : Denotes wb b) (hr : InRange (a * b)) :
    ∃ w, jitMult wa wb = some w ∧ Denotes w (a * b) := by
  have ea := ((denotes_iff _ _).1 ha).2
  have eb := ((denotes_iff _ _).1 hb).2
  refine ⟨pnNum (a * b), ?_, denotes_pnNum hr⟩
  have hd : (BitVec.sshiftRight wb 1).toInt = b := eb
  have h1 : (wa - 1#64).toInt = 2 * a := by
    have ra := ha.inRange
    unfold InRange at ra
    unfold Denotes at ha
    rw [BitVec.toInt_sub, ha]
    simp only [BitVec.toInt_one (show 1 < 64 by omega), Int.bmod]
    omega
  unfold jitMult
  simp only [h1, hd]
  have hassoc : 2 * a * b = 2 * (a * b) := by rw [Int.mul_assoc]
  rw [if_pos (by unfold InRange at hr; unfold FitsLong; rw [hassoc]; omega)]
  congr 1
  apply BitVec.eq_of_toInt_eq
  rw [pnNum_toInt, BitVec.toInt_add, BitVec.toInt_mul, h1, hd, hassoc]
  simp only [BitVec.toInt_one (show 1 < 64 by omega), Int.bmod]
  omega

example : InRange (-3 * 5) ∧ jitMult (pnNum (-3)) (pnNum 5) = some (pnNum (-15)) := by decide

/-- C43: `~`, truth test and `not` agree between JIT and interpreter for every word. -/
theorem C43_jit_unary (w : PN) :
    (isInt w = true → jitBitn w = numBitn w) ∧ jitTest w = vmTest w ∧ jitNot w = vmNot w := by
  refine ⟨?_, ?_, ?_⟩
  · intro h
    have hd : Denotes w (pnInt w) := (denotes_iff _ _).2 ⟨h, rfl⟩
    have h1 := (C02_bitn w _ hd).eq_pnNum
    rw [h1]
    apply BitVec.eq_of_toInt_eq
    rw [pnNum_toInt]
    unfold jitBitn Denotes at *
    rw [← BitVec.neg_eq_not_add, BitVec.toInt_neg, hd]
    simp only [Int.bmod]
    omega
  · unfold jitTest vmTest pnTest pnBool
    by_cases h1 : w = PN_FALSE <;> by_cases h2 : w = PN_NIL <;> simp [h1, h2]
  · unfold jitNot vmNot pnTest pnBool
    by_cases h1 : w = PN_FALSE <;> by_cases h2 : w = PN_NIL <;> simp [h1, h2]

/-- C43 is FALSE: JIT and interpreter disagree. `-4 / 2` compiled by the JIT is 2147483646 (32-bit code), `(2^62-1)+1`
wraps in the JIT but becomes a double in the interpreter, and the `<=>` operator is compiled to a truth test. -/
theorem C43_jit_interpreter_agree_refuted :
    (∃ w, jitDiv (pnNum (-4)) (pnNum 2) = some w ∧ Denotes w 2147483646 ∧
      vmMath2 .div (pnNum (-4)) (pnNum 2) = some (pnNum (-2))) ∧
    (∀ (D : Type) (f : Int → D) (g : D → D → D),
      vmMath3 .add f g (pnNum (2^62-1)) (pnNum 1) ≠ .imm (jitAdd (pnNum (2^62-1)) (pnNum 1))) ∧
    jitCmpOp (pnNum 1) (pnNum 2) = PN_TRUE ∧ vmCmpOp (pnNum 1) (pnNum 2) = pnNum 1 := by
  refine ⟨⟨pnNum 2147483646, by decide⟩, ?_, by decide, by decide⟩
  intro D f g h
  have := (C03_vm_no_wrap f g .add (Or.inl rfl) (pnNum (2^62-1)) (pnNum 1) (2^62-1) 1 (by decide) (by decide)).2 (by decide)
  rw [this] at h
  cases h

end Potion.Props
