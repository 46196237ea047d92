import Verif.Model.Mt
import Verif.Spec.Mt
/-! Lemmas: the 64-bit in-place generator tracks the 32-bit recurrence. -/
namespace Potion.Mt
open Potion Potion.Spec

/-- Zero extension. -/
def zx (x : BitVec 32) : BitVec 64 := x.setWidth 64

theorem zx_get (x : BitVec 32) (i : Nat) : (zx x).getLsbD i = x.getLsbD i := by
  simp only [zx, BitVec.getLsbD_setWidth]
  by_cases h : i < 64
  · simp [h]
  · simp [h, BitVec.getLsbD_of_ge x i (by omega)]

theorem zx_and (x y : BitVec 32) : zx (x &&& y) = zx x &&& zx y := by
  apply BitVec.eq_of_getLsbD_eq; intro i hi; simp [zx_get]
theorem zx_or (x y : BitVec 32) : zx (x ||| y) = zx x ||| zx y := by
  apply BitVec.eq_of_getLsbD_eq; intro i hi; simp [zx_get]
theorem zx_xor (x y : BitVec 32) : zx (x ^^^ y) = zx x ^^^ zx y := by
  apply BitVec.eq_of_getLsbD_eq; intro i hi; simp [zx_get]
theorem zx_shr (x : BitVec 32) (k : Nat) : zx (x >>> k) = zx x >>> k := by
  apply BitVec.eq_of_getLsbD_eq; intro i hi; simp [zx_get]
theorem zx_shl_and (x m : BitVec 32) (k : Nat) : zx ((x <<< k) &&& m) = (zx x <<< k) &&& zx m := by
  apply BitVec.eq_of_getLsbD_eq; intro i hi
  simp only [zx_get, BitVec.getLsbD_and, BitVec.getLsbD_shiftLeft]
  by_cases h : i < 32
  · simp [h, hi]
  · simp [BitVec.getLsbD_of_ge m i (by omega)]

theorem zx_lt (x : BitVec 32) : (zx x).toNat = x.toNat := by
  simp only [zx, BitVec.toNat_setWidth]; have := x.isLt; omega

theorem zx_mul_add (a x c : BitVec 32) (c' : BitVec 64) (hc : c'.toNat % 4294967296 = c.toNat) :
    zx (a * x + c) = (zx a * zx x + c') &&& 0xffffffff#64 := by
  apply BitVec.eq_of_toNat_eq
  rw [zx_lt]
  have h1 : (0xffffffff#64).toNat = 2^32 - 1 := rfl
  simp only [BitVec.toNat_and, h1, Nat.and_two_pow_sub_one_eq_mod]
  simp only [BitVec.toNat_add, BitVec.toNat_mul, zx_lt]
  generalize a.toNat * x.toNat = p
  omega

theorem seed_zx (s : BitVec 64) : s &&& 0xffffffff#64 = zx (s.setWidth 32) := by
  apply BitVec.eq_of_toNat_eq
  have h1 : (0xffffffff#64).toNat = 2^32 - 1 := rfl
  rw [zx_lt]
  simp only [BitVec.toNat_and, h1, Nat.and_two_pow_sub_one_eq_mod, BitVec.toNat_setWidth]

theorem and_one (v : BitVec 64) : (v &&& 1#64 ≠ 0#64) ↔ v.getLsbD 0 = true := by
  have : v &&& 1#64 = if v.getLsbD 0 then 1#64 else 0#64 := by
    apply BitVec.eq_of_getLsbD_eq; intro i hi
    by_cases h : v.getLsbD 0 = true
    · simp only [h, if_true, BitVec.getLsbD_and]
      by_cases h0 : i = 0
      · subst h0; simp [h]
      · simp [h0]
    · simp only [h, BitVec.getLsbD_and]
      by_cases h0 : i = 0
      · subst h0; simpa using h
      · simp [h0]
  rw [this]
  cases v.getLsbD 0 <;> simp

theorem twist_zx (u v : BitVec 32) : TWIST (zx u) (zx v) = zx (twist u v) := by
  have e1 : UMASK = zx 0x80000000#32 := by decide
  have e2 : LMASK = zx 0x7fffffff#32 := by decide
  have e3 : MATRIX_A = zx 0x9908b0df#32 := by decide
  have e4 : (0#64) = zx 0#32 := by decide
  unfold TWIST twist MIXBITS
  rw [e1, e2, zx_xor, zx_shr, zx_or, zx_and, zx_and]
  congr 1
  by_cases h : v.getLsbD 0 = true
  · rw [if_pos ((and_one _).2 (by rw [zx_get]; exact h)), if_pos h, e3]
  · rw [if_neg (fun h' => h (by have := (and_one _).1 h'; rwa [zx_get] at this)), if_neg h, e4]

theorem temper_zx (y : BitVec 32) : temper (zx y) = zx (mtTemper y) := by
  have e1 : (0x9d2c5680#64) = zx 0x9d2c5680#32 := by decide
  have e2 : (0xefc60000#64) = zx 0xefc60000#32 := by decide
  simp only [temper, mtTemper, e1, e2, ← zx_shr, ← zx_xor, ← zx_shl_and]

theorem mtSeq_zero (s : BitVec 32) : mtSeq s 0 = s := by rw [mtSeq]
theorem mtSeq_init (s : BitVec 32) (n : Nat) (h : n + 1 < 624) :
    mtSeq s (n+1) = 1812433253#32 * (mtSeq s n ^^^ (mtSeq s n >>> 30)) + BitVec.ofNat 32 (n+1) := by
  rw [mtSeq, dif_pos h]
theorem mtSeq_rec (s : BitVec 32) (n : Nat) :
    mtSeq s (n + 624) = mtSeq s (n + 397) ^^^ twist (mtSeq s n) (mtSeq s (n+1)) := by
  have : n + 624 = (n + 623) + 1 := by omega
  rw [this, mtSeq, dif_neg (by omega)]
  have : n + 623 + 1 - 624 = n := by omega
  rw [this]

theorem initLoop_spec (s : BitVec 32) : ∀ (c j : Nat) (st : Nat → BitVec 64), 1 ≤ j → j + c ≤ 624 →
    (∀ i, i < j → st i = zx (mtSeq s i)) → ∀ i, i < j + c → initLoop c j st i = zx (mtSeq s i) := by
  intro c
  induction c with
  | zero => intro j st _ _ h i hi; exact h i hi
  | succ c ih =>
    intro j st hj hc h i hi
    rw [initLoop]
    apply ih (j+1) _ (by omega) (by omega) _ i (by omega)
    intro k hk
    unfold set
    by_cases hkj : k = j
    · subst hkj
      rw [if_pos rfl, h (k-1) (by omega)]
      obtain ⟨k', rfl⟩ : ∃ k', k = k' + 1 := ⟨k-1, by omega⟩
      have e : (1812433253#64) = zx 1812433253#32 := by decide
      simp only [Nat.add_sub_cancel]
      rw [mtSeq_init s k' (by omega), e, ← zx_shr, ← zx_xor]
      rw [zx_mul_add]
      simp only [BitVec.toNat_ofNat]
      omega
    · rw [if_neg hkj]; exact h k (by omega)

/-- The state array holds x_b .. x_{b+623}. -/
def Holds (s : BitVec 32) (b : Nat) (st : Nat → BitVec 64) : Prop := ∀ i, i < 624 → st i = zx (mtSeq s (b + i))

/-- Mid-refill: entries below `p` are already the next block. -/
def Mid (s : BitVec 32) (b p : Nat) (st : Nat → BitVec 64) : Prop :=
  ∀ i, i < 624 → st i = zx (mtSeq s (if i < p then b + i + 624 else b + i))

theorem mid_step (s : BitVec 32) (b p : Nat) (st : Nat → BitVec 64) (v : BitVec 64)
    (h : Mid s b p st) (hv : v = zx (mtSeq s (b + p + 624))) : Mid s b (p+1) (set st p v) := by
  intro i hi
  unfold set
  by_cases hip : i = p
  · subst hip; rw [if_pos rfl, if_pos (by omega), hv]
  · rw [if_neg hip, h i hi]
    by_cases hlt : i < p
    · rw [if_pos hlt, if_pos (by omega)]
    · rw [if_neg hlt, if_neg (by omega)]

theorem loop1_spec (s : BitVec 32) (b : Nat) : ∀ (c p : Nat) (st : Nat → BitVec 64), p + c ≤ 227 → Mid s b p st →
    ∃ st', loop1 c p st = some st' ∧ Mid s b (p + c) st' := by
  intro c
  induction c with
  | zero => intro p st _ h; exact ⟨st, rfl, h⟩
  | succ c ih =>
    intro p st hc h
    rw [loop1]
    have e : p + M < N ∧ p + 1 < N := by simp only [M, N]; omega
    rw [if_pos e]
    have := ih (p+1) (set st p (st (p + M) ^^^ TWIST (st p) (st (p+1)))) (by omega) (mid_step s b p st _ h (by
      simp only [M]
      rw [h (p+397) (by omega), h p (by omega), h (p+1) (by omega), if_neg (by omega), if_neg (by omega), if_neg (by omega)]
      rw [twist_zx, mtSeq_rec s (b+p), zx_xor, ← Nat.add_assoc, ← Nat.add_assoc]))
    rw [show p + (c+1) = p + 1 + c by omega]
    exact this

theorem loop2_spec (s : BitVec 32) (b : Nat) : ∀ (c p : Nat) (st : Nat → BitVec 64), 227 ≤ p → p + c ≤ 623 → Mid s b p st →
    ∃ st', loop2 c p st = some st' ∧ Mid s b (p + c) st' := by
  intro c
  induction c with
  | zero => intro p st _ _ h; exact ⟨st, rfl, h⟩
  | succ c ih =>
    intro p st hp hc h
    rw [loop2]
    have e : N - M ≤ p ∧ p + 1 < N := by simp only [M, N]; omega
    rw [if_pos e]
    have := ih (p+1) (set st p (st (p - (N - M)) ^^^ TWIST (st p) (st (p+1)))) (by omega) (by omega) (mid_step s b p st _ h (by
      simp only [M, N]
      rw [h (p-(624-397)) (by omega), h p (by omega), h (p+1) (by omega), if_pos (by omega), if_neg (by omega), if_neg (by omega)]
      rw [twist_zx, mtSeq_rec s (b+p), zx_xor, show b + (p - (624-397)) + 624 = b + p + 397 by omega, ← Nat.add_assoc]))
    rw [show p + (c+1) = p + 1 + c by omega]
    exact this

theorem nextState_spec (s : BitVec 32) (b : Nat) (g : Gen) (hi : g.initf = true) (h : Holds s b g.state) :
    ∃ g', nextState g = some g' ∧ g'.initf = true ∧ g'.left = 624 ∧ g'.next = 0 ∧ Holds s (b+624) g'.state := by
  unfold nextState
  simp only [hi, if_true]
  have m0 : Mid s b 0 g.state := by
    intro i hi; rw [if_neg (by omega)]; exact h i hi
  obtain ⟨s1, e1, m1⟩ := loop1_spec s b 227 0 g.state (by omega) m0
  obtain ⟨s2, e2, m2⟩ := loop2_spec s b 396 227 s1 (by omega) (by omega) m1
  have c1 : N - M = 227 := rfl
  have c2 : M - 1 = 396 := rfl
  rw [c1, c2, e1]
  simp only []
  rw [e2]
  refine ⟨_, rfl, rfl, rfl, rfl, ?_⟩
  have m3 := mid_step s b 623 s2 (s2 (227+396-227) ^^^ TWIST (s2 (227+396)) (s2 0)) m2 (by
    rw [m2 (227+396-227) (by omega), m2 (227+396) (by omega), m2 0 (by omega), if_pos (by omega), if_neg (by omega), if_pos (by omega)]
    rw [twist_zx, mtSeq_rec s (b+623), zx_xor, show b + (227+396-227) + 624 = b + 623 + 397 by omega,
      show b + 0 + 624 = b + 623 + 1 by omega])
  intro i hi
  have := m3 i hi
  rw [if_pos (by omega)] at this
  rw [show b + 624 + i = b + i + 624 by omega]
  exact this

/-- After `k` outputs since seeding with `s`: the array holds the block starting at x_b, `n` of whose entries are used. -/
def At (s : BitVec 32) (k : Nat) (g : Gen) : Prop :=
  g.initf = true ∧ ∃ b n : Nat, Holds s b g.state ∧ 1 ≤ n ∧ n ≤ 624 ∧ g.left = 625 - (n:Int) ∧ (n < 624 → g.next = n) ∧
    b + n = 624 + k

theorem holds_init (g : Gen) (s : BitVec 64) : Holds (s.setWidth 32) 0 (initGenrand g s).state := by
  intro i hi
  simp only [initGenrand]
  rw [Nat.zero_add]
  apply initLoop_spec (s.setWidth 32) (N-1) 1 _ (by omega) (by decide) _ i (by simp only [N]; omega)
  intro j hj
  have : j = 0 := by omega
  subst this
  rw [mtSeq_zero, ← seed_zx]; rfl

theorem at_init (g : Gen) (s : BitVec 64) : At (s.setWidth 32) 0 (initGenrand g s) :=
  ⟨rfl, 0, 624, holds_init g s, by omega, by omega, rfl, fun h => absurd h (by omega), rfl⟩

theorem randInt_at (s : BitVec 32) (k : Nat) (g : Gen) (h : At s k g) :
    ∃ g', randInt g = some (g', zx (mtOut s k)) ∧ At s (k+1) g' := by
  obtain ⟨hi, b, n, hh, h1, h2, hl, hn, hk⟩ := h
  unfold randInt
  by_cases hc : n = 624
  · subst hc
    obtain ⟨g', e, i', l', n', h'⟩ := nextState_spec s b { g with left := g.left - 1 } hi hh
    have : g.left - 1 = 0 := by rw [hl]; decide
    simp only [this, if_pos] at e ⊢
    rw [e]
    simp only [n']
    rw [if_pos (by decide)]
    have hbk : b = k := by omega
    subst hbk
    rw [h' 0 (by omega), temper_zx, show b + 624 + 0 = 624 + b by omega]
    refine ⟨_, rfl, i', b + 624, 1, h', by omega, by omega, ?_, fun _ => rfl, by omega⟩
    simp only [l']; decide
  · have hne : ¬ (g.left - 1 = 0) := by rw [hl]; omega
    simp only [if_neg hne]
    have hnx := hn (by omega)
    simp only [hnx]
    rw [if_pos (by simp only [N]; omega), hh n (by omega), temper_zx, hk]
    refine ⟨_, rfl, hi, b, n+1, hh, by omega, by omega, ?_, fun _ => rfl, by omega⟩
    simp only [hl]; omega

theorem randN_at (s : BitVec 32) : ∀ (n k : Nat) (g : Gen), At s k g →
    ∃ g', randN n g = some (g', (List.range' k n).map (fun i => zx (mtOut s i))) ∧ At s (k+n) g' := by
  intro n
  induction n with
  | zero => intro k g h; exact ⟨g, rfl, h⟩
  | succ n ih =>
    intro k g h
    obtain ⟨g1, e1, h1⟩ := randInt_at s k g h
    obtain ⟨g2, e2, h2⟩ := ih (k+1) g1 h1
    refine ⟨g2, ?_, by rw [show k + (n+1) = k + 1 + n by omega]; exact h2⟩
    rw [randN, e1]
    simp only [e2, List.range'_succ, List.map_cons]

theorem nextState_cong (a b : Gen) (ha : a.initf = true) (hb : b.initf = true) (h : a.state = b.state) :
    nextState a = nextState b := by
  obtain ⟨s1, l1, i1, n1⟩ := a
  obtain ⟨s2, l2, i2, n2⟩ := b
  simp only [] at ha hb h
  subst ha hb h
  unfold nextState
  simp only [if_true]

theorem nextState_uninit (g : Gen) (h : g.initf = false) : nextState g = nextState (initGenrand g 5489#64) := by
  have hx : (initGenrand g 5489#64).initf = true := rfl
  generalize hy : initGenrand g 5489#64 = x at hx
  unfold nextState
  simp only [h, hx, if_true, Bool.false_eq_true, if_false, hy]

/-- Before the first seeding the first draw behaves as after `init_genrand(5489)`. -/
theorem randInt_start : randInt Gen.start = randInt (initGenrand Gen.start 5489#64) := by
  unfold randInt
  have l1 : Gen.start.left - 1 = 0 := rfl
  have l2 : (initGenrand Gen.start 5489#64).left - 1 = 0 := rfl
  simp only [l1, l2, if_true]
  rw [nextState_uninit { Gen.start with left := 0 } rfl, nextState_cong (initGenrand { Gen.start with left := 0 } 5489#64)
    { initGenrand Gen.start 5489#64 with left := 0 } rfl rfl (by simp only [initGenrand])]

end Potion.Mt

namespace Potion.Mt
open Potion Potion.Spec

/-- `At`, or the untouched program start. -/
def Ready (s : BitVec 32) (k : Nat) (g : Gen) : Prop := At s k g ∨ (g = Gen.start ∧ s = 5489#32 ∧ k = 0)

theorem ready_draw (s : BitVec 32) (k : Nat) (g : Gen) (h : Ready s k g) :
    ∃ g', randInt g = some (g', zx (mtOut s k)) ∧ Ready s (k+1) g' := by
  rcases h with h | ⟨rfl, rfl, rfl⟩
  · obtain ⟨g', e, h'⟩ := randInt_at s k g h; exact ⟨g', e, Or.inl h'⟩
  · rw [randInt_start]
    have := at_init Gen.start 5489#64
    obtain ⟨g', e, h'⟩ := randInt_at _ _ _ this
    exact ⟨g', e, Or.inl h'⟩

theorem zx_toInt (x : BitVec 32) : (zx x).toInt = x.toNat := by
  rw [BitVec.toInt_eq_toNat_bmod, zx_lt]
  have := x.isLt
  simp only [Int.bmod]; omega

end Potion.Mt
