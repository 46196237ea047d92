import Verif.Model.Khash
/-! Counting true entries of a Boolean array. -/
namespace Potion

/-- Number of indices below `n` satisfying `p`. -/
def cnt (p : Nat → Bool) : Nat → Nat
  | 0 => 0
  | n+1 => cnt p n + (p n).toNat

theorem cnt_le (p : Nat → Bool) (n : Nat) : cnt p n ≤ n := by
  induction n with
  | zero => simp [cnt]
  | succ n ih => have := Bool.toNat_le (p n); simp only [cnt]; omega

theorem cnt_lt_exists {p : Nat → Bool} {n : Nat} (h : cnt p n < n) : ∃ i, i < n ∧ p i = false := by
  induction n with
  | zero => simp at h
  | succ n ih =>
    by_cases hp : p n = true
    · simp only [cnt, hp, Bool.toNat_true] at h
      obtain ⟨i, hi, hf⟩ := ih (by omega)
      exact ⟨i, by omega, hf⟩
    · exact ⟨n, by omega, by simpa using hp⟩

theorem cnt_congr {p q : Nat → Bool} {n : Nat} (h : ∀ i, i < n → p i = q i) : cnt p n = cnt q n := by
  induction n with
  | zero => rfl
  | succ n ih => simp only [cnt]; rw [ih (fun i hi => h i (by omega)), h n (by omega)]

theorem cnt_upd_ge {p : Nat → Bool} {n i : Nat} {b : Bool} (h : n ≤ i) : cnt (upd p i b) n = cnt p n := by
  apply cnt_congr; intro j hj; simp only [upd]; rw [if_neg (by omega)]

theorem cnt_upd_true {p : Nat → Bool} {n i : Nat} (h : i < n) (hp : p i = false) :
    cnt (upd p i true) n = cnt p n + 1 := by
  induction n with
  | zero => omega
  | succ n ih =>
    simp only [cnt]
    by_cases hi : i = n
    · subst hi; rw [cnt_upd_ge (Nat.le_refl _)]; simp [upd, hp]
    · rw [ih (by omega)]
      have : upd p i true n = p n := by simp only [upd]; rw [if_neg (by omega)]
      rw [this]; omega

theorem cnt_upd_false {p : Nat → Bool} {n i : Nat} (h : i < n) (hp : p i = true) :
    cnt (upd p i false) n + 1 = cnt p n := by
  induction n with
  | zero => omega
  | succ n ih =>
    simp only [cnt]
    by_cases hi : i = n
    · subst hi; rw [cnt_upd_ge (Nat.le_refl _)]; simp [upd, hp]
    · have := ih (by omega)
      have e : upd p i false n = p n := by simp only [upd]; rw [if_neg (by omega)]
      rw [e]; omega

theorem cnt_pos {p : Nat → Bool} {n i : Nat} (h : i < n) (hp : p i = true) : 0 < cnt p n := by
  have := cnt_upd_false h hp; omega

theorem cnt_mono {p q : Nat → Bool} {n : Nat} (h : ∀ i, i < n → p i = true → q i = true) : cnt p n ≤ cnt q n := by
  induction n with
  | zero => simp [cnt]
  | succ n ih =>
    simp only [cnt]
    have h1 := ih (fun i hi => h i (by omega))
    have h2 : (p n).toNat ≤ (q n).toNat := by
      have := h n (by omega)
      cases hp : p n <;> cases hq : q n <;> simp_all
    omega

theorem cnt_false (n : Nat) : cnt (fun _ => false) n = 0 := by
  induction n with
  | zero => rfl
  | succ n ih => simp [cnt, ih]

theorem cnt_eq_zero {p : Nat → Bool} {n : Nat} (h : ∀ i, i < n → p i = false) : cnt p n = 0 := by
  rw [cnt_congr (q := fun _ => false) h, cnt_false]

/-- Extending the range with false entries does not change the count. -/
theorem cnt_ext {p : Nat → Bool} {n m : Nat} (hnm : n ≤ m) (h : ∀ i, n ≤ i → p i = false) : cnt p m = cnt p n := by
  induction m with
  | zero => have : n = 0 := by omega
            subst this; rfl
  | succ m ih =>
    by_cases hm : n = m + 1
    · subst hm; rfl
    · simp only [cnt]; rw [ih (by omega), h m (by omega)]; simp

theorem upd_same {α : Type} (f : Nat → α) (i : Nat) (x : α) : upd f i x i = x := by simp [upd]
theorem upd_ne {α : Type} (f : Nat → α) {i j : Nat} (x : α) (h : j ≠ i) : upd f i x j = f j := by simp [upd, h]

theorem comp_upd {α β : Type} (g : α → β) (f : Nat → α) (i : Nat) (x : α) :
    (fun j => g (upd f i x j)) = upd (fun j => g (f j)) i (g x) := by
  funext j; simp only [upd]; split <;> rfl

theorem upd_self {α : Type} (f : Nat → α) (i : Nat) : upd f i (f i) = f := by
  funext j; simp only [upd]; split
  · subst_vars; rfl
  · rfl

end Potion
