import Verif.Model.Str
import Verif.Spec.Utf8
import Verif.Spec.Order
import Mathlib.Tactic.IntervalCases
/-! Comparison of C strings and the order of UTF-8 encodings. -/
namespace Potion.Str
open Potion Potion.Spec

/-- The bytes as numbers. -/
def nums (s : List (BitVec 8)) : List Int := s.map fun b => (b.toNat : Int)

theorem holds_tail {m : Nat → BitVec 8} {p : Nat} {b : BitVec 8} {s : List (BitVec 8)} (h : HoldsAt m p (b :: s)) :
    m p = b ∧ b ≠ 0#8 ∧ HoldsAt m (p + 1) s := by
  obtain ⟨h1, h2, h3⟩ := h
  refine ⟨by have := h1 0 (by simp); rw [List.getElem_cons_zero] at this; exact this, h3 b (by simp), ?_, ?_, fun x hx => h3 x (by simp [hx])⟩
  · intro i hi
    have := h1 (i + 1) (by simpa using hi)
    simpa [Nat.add_assoc, Nat.add_comm 1 i] using this
  · simpa [Nat.add_assoc, Nat.add_comm 1 s.length] using h2

theorem holds_nil {m : Nat → BitVec 8} {p : Nat} (h : HoldsAt m p []) : m p = 0#8 := by simpa using h.2.1

theorem byte_pos {b : BitVec 8} (h : b ≠ 0#8) : 0 < b.toNat := by
  rcases Nat.eq_zero_or_pos b.toNat with h0 | h0
  · exact absurd (BitVec.eq_of_toNat_eq h0) h
  · exact h0

/-- The value `strcmp` computes, from the contents. -/
def diff : List (BitVec 8) → List (BitVec 8) → Int
  | [], [] => 0
  | [], b :: _ => - (b.toNat : Int)
  | a :: _, [] => a.toNat
  | a :: s, b :: t => if a = b then diff s t else a.toNat - b.toNat

theorem strcmpLoop_diff (m : Nat → BitVec 8) (s : List (BitVec 8)) : ∀ (t : List (BitVec 8)) (p q fuel : Nat),
    HoldsAt m p s → HoldsAt m q t → min s.length t.length < fuel → strcmpLoop m fuel p q = some (diff s t) := by
  induction s with
  | nil =>
    intro t p q fuel hp hq hf
    obtain ⟨f, rfl⟩ : ∃ f, fuel = f + 1 := ⟨fuel - 1, by simp at hf; omega⟩
    have h0 := holds_nil hp
    cases t with
    | nil => have h1 := holds_nil hq; simp [strcmpLoop, h0, h1, diff]
    | cons b t => obtain ⟨h1, _, _⟩ := holds_tail hq; simp [strcmpLoop, h0, h1, diff]
  | cons a s ih =>
    intro t p q fuel hp hq hf
    obtain ⟨f, rfl⟩ : ∃ f, fuel = f + 1 := ⟨fuel - 1, by omega⟩
    obtain ⟨h0, hne, hp'⟩ := holds_tail hp
    cases t with
    | nil => have h1 := holds_nil hq; simp [strcmpLoop, h0, h1, hne, diff]
    | cons b t =>
      obtain ⟨h1, hb, hq'⟩ := holds_tail hq
      by_cases hab : a = b
      · subst hab
        rw [strcmpLoop, if_neg (by rw [h0, h1]; simp [hne])]
        rw [ih t (p+1) (q+1) f hp' hq' (by simp at hf; omega)]
        simp [diff]
      · rw [strcmpLoop, if_pos (by rw [h0, h1]; exact Or.inl hab), h0, h1]
        simp [diff, hab]

theorem diff_sign (s : List (BitVec 8)) : ∀ t, (∀ b ∈ s, b ≠ 0#8) → (∀ b ∈ t, b ≠ 0#8) →
    (diff s t).sign = lexCmp (nums s) (nums t) := by
  induction s with
  | nil =>
    intro t _ ht
    cases t with
    | nil => rfl
    | cons b t =>
      have := byte_pos (ht b (by simp))
      simp only [diff, nums, List.map_nil, List.map_cons, lexCmp]
      exact Int.sign_eq_neg_one_of_neg (by omega)
  | cons a s ih =>
    intro t hs ht
    cases t with
    | nil =>
      have := byte_pos (hs a (by simp))
      simp only [diff, nums, List.map_nil, List.map_cons, lexCmp]
      exact Int.sign_eq_one_of_pos (by omega)
    | cons b t =>
      have ih := ih t (fun x hx => hs x (by simp [hx])) (fun x hx => ht x (by simp [hx]))
      simp only [diff, nums, List.map_cons, lexCmp] at ih ⊢
      by_cases hab : a = b
      · subst hab; simp [ih]
      · have hne : a.toNat ≠ b.toNat := fun h => hab (BitVec.eq_of_toNat_eq h)
        rw [if_neg hab]
        by_cases h : a.toNat < b.toNat
        · rw [if_pos (by omega)]; exact Int.sign_eq_neg_one_of_neg (by omega)
        · rw [if_neg (by omega), if_pos (by omega)]; exact Int.sign_eq_one_of_pos (by omega)

/-! ### The order -/

theorem lexCmp_self (s : List Int) : lexCmp s s = 0 := by
  induction s with
  | nil => rfl
  | cons a s ih => simp [lexCmp, ih]

theorem lexCmp_eq (s : List Int) : ∀ t, lexCmp s t = 0 → s = t := by
  induction s with
  | nil => intro t h; cases t with
    | nil => rfl
    | cons b t => simp [lexCmp] at h
  | cons a s ih =>
    intro t h
    cases t with
    | nil => simp [lexCmp] at h
    | cons b t =>
      simp only [lexCmp] at h
      split at h
      · cases h
      · split at h
        · cases h
        · rw [ih t h, show a = b by omega]

theorem lexCmp_anti (s : List Int) : ∀ t, lexCmp t s = - lexCmp s t := by
  induction s with
  | nil => intro t; cases t <;> rfl
  | cons a s ih =>
    intro t
    cases t with
    | nil => rfl
    | cons b t =>
      simp only [lexCmp]
      by_cases h1 : a < b
      · rw [if_pos h1, if_neg (by omega), if_pos h1]; rfl
      · by_cases h2 : b < a
        · rw [if_pos h2, if_neg h1, if_pos h2]
        · rw [if_neg h1, if_neg h2, if_neg h2, if_neg h1, ih t]

theorem lexCmp_le_trans (s : List Int) : ∀ t u, lexCmp s t ≤ 0 → lexCmp t u ≤ 0 → lexCmp s u ≤ 0 := by
  induction s with
  | nil => intro t u _ _; cases u <;> simp [lexCmp]
  | cons a s ih =>
    intro t u h1 h2
    cases t with
    | nil => simp [lexCmp] at h1
    | cons b t =>
      cases u with
      | nil => simp [lexCmp] at h2
      | cons c u =>
        simp only [lexCmp] at h1 h2 ⊢
        split at h1
        · split at h2
          · rw [if_pos (by omega)]; omega
          · split at h2
            · omega
            · rw [if_pos (by omega)]; omega
        · split at h1
          · omega
          · split at h2
            · rw [if_pos (by omega)]; omega
            · split at h2
              · omega
              · rw [if_neg (by omega), if_neg (by omega)]; exact ih t u h1 h2

/-! ### UTF-8 -/

theorem lexCmp_append (u s t : List Int) : lexCmp (u ++ s) (u ++ t) = lexCmp s t := by
  induction u with
  | nil => rfl
  | cons a u ih => simp [lexCmp, ih]

/-- The encoding of a code point, as integers. -/
def enc (c : Nat) : List Int := (utf8 c).map fun n => Int.ofNat n

theorem enc_lt {c d : Nat} (h : c < d) (hd : d ≤ 0x10FFFF) (s t : List Int) : lexCmp (enc c ++ s) (enc d ++ t) = -1 := by
  unfold enc utf8
  repeat' split
  all_goals simp only [List.map_cons, List.map_nil, List.cons_append, List.nil_append, lexCmp, Int.ofNat_eq_natCast]
  all_goals repeat' split
  all_goals first | rfl | omega

theorem enc_cons (c : Nat) : ∃ x l, enc c = x :: l := by
  unfold enc utf8; repeat' split
  all_goals exact ⟨_, _, rfl⟩

theorem lexCmp_enc (cs : List Nat) : ∀ ds : List Nat, (∀ c ∈ cs, c ≤ 0x10FFFF) → (∀ d ∈ ds, d ≤ 0x10FFFF) →
    lexCmp (cs.flatMap enc) (ds.flatMap enc) = lexCmp (cs.map Int.ofNat) (ds.map Int.ofNat) := by
  induction cs with
  | nil =>
    intro ds _ _
    cases ds with
    | nil => rfl
    | cons d ds => obtain ⟨x, l, h⟩ := enc_cons d; simp [h, lexCmp]
  | cons c cs ih =>
    intro ds hc hd
    cases ds with
    | nil => obtain ⟨x, l, h⟩ := enc_cons c; simp [h, lexCmp]
    | cons d ds =>
      have ih := ih ds (fun x hx => hc x (by simp [hx])) (fun x hx => hd x (by simp [hx]))
      simp only [List.flatMap_cons, List.map_cons, lexCmp, Int.ofNat_eq_natCast] at ih ⊢
      rcases Nat.lt_trichotomy c d with h | h | h
      · rw [if_pos (by omega), enc_lt h (hd d (by simp))]
      · subst h; rw [if_neg (by omega), if_neg (by omega), lexCmp_append, ih]
      · rw [if_neg (by omega), if_pos (by omega), ← neg_neg (lexCmp _ _), ← lexCmp_anti, enc_lt h (hc c (by simp))]; rfl

end Potion.Str
