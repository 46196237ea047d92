import Verif.Model.Sort
/-! Helper lemmas for reversing, sorting and searching. -/
namespace Potion.Sorting
open Potion

/-! ### swap -/
theorem set_mid {α} (P : List α) (a : α) (Q : List α) (v : α) : (P ++ a :: Q).set P.length v = P ++ v :: Q := by
  rw [List.set_append_right _ _ (Nat.le_refl _)]; simp
theorem get_mid {α} (P : List α) (a : α) (Q : List α) : (P ++ a :: Q)[P.length]? = some a := by
  simp

theorem swap_segments (P M Q : List PN) (a b : PN) (i j : Nat) (hi : i = P.length) (hj : j = P.length + 1 + M.length) :
    swap (P ++ a :: M ++ b :: Q) i j = some (P ++ b :: M ++ a :: Q) := by
  subst hi
  have hj' : j = (P ++ a :: M).length := by simp; omega
  subst hj'
  have hne : P.length ≠ (P ++ a :: M).length := by simp
  have g1 : ∀ (x y : PN), (P ++ x :: M ++ y :: Q)[P.length]? = some x := by intros; simp
  have g2 : ∀ (x y : PN), (P ++ x :: M ++ y :: Q)[(P ++ a :: M).length]? = some y := by
    intro x y
    have : (P ++ a :: M).length = (P ++ x :: M).length := by simp
    rw [this]; exact get_mid _ _ _
  have s1 : ∀ (x y v : PN), (P ++ x :: M ++ y :: Q).set P.length v = P ++ v :: M ++ y :: Q := by
    intro x y v
    rw [List.append_assoc, List.cons_append, set_mid]; simp
  have s2 : ∀ (x y v : PN), (P ++ x :: M ++ y :: Q).set (P ++ a :: M).length v = P ++ x :: M ++ v :: Q := by
    intro x y v
    have : (P ++ a :: M).length = (P ++ x :: M).length := by simp
    rw [this]; exact set_mid _ _ _ _
  unfold swap xorAt
  rw [if_pos hne]
  simp only [g1, g2, s1, s2]
  have e1 : b ^^^ (a ^^^ b) = a := by
    rw [BitVec.xor_comm a b, ← BitVec.xor_assoc, BitVec.xor_self, BitVec.zero_xor]
  rw [e1]
  have e2 : a ^^^ b ^^^ a = b := by
    rw [BitVec.xor_comm a b, BitVec.xor_assoc, BitVec.xor_self, BitVec.xor_zero]
  rw [e2]

theorem swap_segments' (P M Q : List PN) (a b : PN) (i j : Nat) (hi : i = P.length) (hj : j = P.length + 1 + M.length) :
    swap (P ++ a :: M ++ b :: Q) j i = some (P ++ b :: M ++ a :: Q) := by
  subst hi
  have hj' : j = (P ++ a :: M).length := by simp; omega
  subst hj'
  have hne : (P ++ a :: M).length ≠ P.length := by simp
  have g1 : ∀ (x y : PN), (P ++ x :: M ++ y :: Q)[P.length]? = some x := by intros; simp
  have g2 : ∀ (x y : PN), (P ++ x :: M ++ y :: Q)[(P ++ a :: M).length]? = some y := by
    intro x y
    have : (P ++ a :: M).length = (P ++ x :: M).length := by simp
    rw [this]; exact get_mid _ _ _
  have s1 : ∀ (x y v : PN), (P ++ x :: M ++ y :: Q).set P.length v = P ++ v :: M ++ y :: Q := by
    intro x y v
    rw [List.append_assoc, List.cons_append, set_mid]; simp
  have s2 : ∀ (x y v : PN), (P ++ x :: M ++ y :: Q).set (P ++ a :: M).length v = P ++ x :: M ++ v :: Q := by
    intro x y v
    have : (P ++ a :: M).length = (P ++ x :: M).length := by simp
    rw [this]; exact set_mid _ _ _ _
  unfold swap xorAt
  rw [if_pos hne]
  simp only [g1, g2, s1, s2]
  have e1 : a ^^^ (b ^^^ a) = b := by
    rw [BitVec.xor_comm b a, ← BitVec.xor_assoc, BitVec.xor_self, BitVec.zero_xor]
  rw [e1]
  have e2 : b ^^^ a ^^^ b = a := by
    rw [BitVec.xor_comm b a, BitVec.xor_assoc, BitVec.xor_self, BitVec.xor_zero]
  rw [e2]

theorem swap_self (m : List PN) (i : Nat) : swap m i i = some m := by simp [swap]

/-! ### reverse -/
theorem reverseLoop_spec (R : List PN) : ∀ (D : List PN),
    reverseLoop (D ++ R) R.length D.length (List.replicate R.length PN_NIL ++ D.reverse) = some (D ++ R).reverse := by
  induction R with
  | nil => intro D; simp [reverseLoop]
  | cons x R ih =>
    intro D
    simp only [List.length_cons, reverseLoop, rd, get_mid]
    have hidx : (D ++ x :: R).length - 1 - D.length = (List.replicate R.length PN_NIL).length := by
      simp
    have hw : Tup.wr (List.replicate (R.length + 1) PN_NIL ++ D.reverse) ((D ++ x :: R).length - 1 - D.length) x
        = some (List.replicate R.length PN_NIL ++ (D ++ [x]).reverse) := by
      unfold Tup.wr
      rw [if_pos (by simp; omega), hidx, List.replicate_succ', List.append_assoc, List.singleton_append, set_mid]
      simp
    rw [hw]
    have := ih (D ++ [x])
    simp only [List.append_assoc, List.singleton_append, List.length_append, List.length_cons, List.length_nil] at this
    simpa using this

theorem reverse_eq (m : List PN) : reverse m = some m.reverse := by
  have := reverseLoop_spec m []
  simpa [reverse] using this

theorem nreverseLoop_spec : ∀ (n : Nat) (P M Q : List PN), P.length = Q.length → n = M.length / 2 →
    nreverseLoop (P ++ M ++ Q).length n P.length (P ++ M ++ Q) = some (P ++ M.reverse ++ Q) := by
  intro n
  induction n with
  | zero =>
    intro P M Q _ hn
    have : M.length < 2 := by omega
    match M, this with
    | [], _ => simp [nreverseLoop]
    | [x], _ => simp [nreverseLoop]
  | succ n ih =>
    intro P M Q hpq hn
    match M with
    | [] => simp at hn
    | a :: M1 =>
      rcases List.eq_nil_or_concat M1 with h | ⟨M', b, rfl⟩
      · subst h; simp at hn
      · simp only [List.concat_eq_append, nreverseLoop]
        have e : P ++ a :: (M' ++ [b]) ++ Q = P ++ a :: M' ++ b :: Q := by simp
        rw [e, swap_segments' P M' Q a b P.length _ rfl (by simp; omega)]
        have := ih (P ++ [b]) M' (a :: Q) (by simp; omega) (by simp at hn; omega)
        simp only [List.length_append, List.length_cons, List.append_assoc, List.singleton_append, List.length_nil] at this ⊢
        have hl : ∀ k, P.length + (M'.length + (Q.length + 1) + 1) = k ↔ P.length + (0 + 1 + (M'.length + (Q.length + 1))) = k := by
          intro k; omega
        simp [Nat.add_assoc, Nat.add_comm, Nat.add_left_comm] at this ⊢
        exact this

theorem nreverse_eq (m : List PN) : nreverse m = some m.reverse := by
  have := nreverseLoop_spec (m.length/2) [] m [] rfl rfl
  simpa [nreverse] using this

/-! ### quicksort -/
theorem partLoop_spec (keep : PN → Bool) : ∀ (R : List PN) (A L H B : List PN) (n i index : Nat),
    (∀ x ∈ L, keep x = true) → (∀ x ∈ H, keep x = false) → n = R.length → index = (A ++ L).length → i = (A ++ L ++ H).length →
    ∃ L' H', partLoop keep n i index (A ++ L ++ H ++ R ++ B) = some (A ++ L' ++ H' ++ B, (A ++ L').length) ∧
      (L' ++ H').Perm (L ++ H ++ R) ∧ (∀ x ∈ L', keep x = true) ∧ (∀ x ∈ H', keep x = false) := by
  intro R
  induction R with
  | nil =>
    intro A L H B n i index hL hH hn hidx hi
    subst hn
    refine ⟨L, H, ?_, by simp, hL, hH⟩
    simp [partLoop, hidx]
  | cons x R ih =>
    intro A L H B n i index hL hH hn hidx hi
    subst hn
    have hr : rd (A ++ L ++ H ++ x :: R ++ B) i = some x := by
      unfold rd
      rw [hi, List.append_assoc]
      exact get_mid _ _ _
    simp only [List.length_cons, partLoop, hr]
    by_cases hk : keep x = true
    · rw [if_pos hk]
      match H with
      | [] =>
        have : i = index := by simp [hi, hidx]
        rw [this, swap_self]
        simp only
        obtain ⟨L', H', h1, h2, h3, h4⟩ := ih A (L ++ [x]) [] B R.length (index+1) (index+1)
          (by intro y hy; simp at hy; rcases hy with hy | rfl; exact hL y hy; exact hk) (by simp) rfl
          (by simp [hidx]; omega) (by simp [hidx]; omega)
        refine ⟨L', H', ?_, ?_, h3, h4⟩
        · simpa using h1
        · simpa using h2
      | h :: H1 =>
        have hs : swap (A ++ L ++ h :: H1 ++ x :: R ++ B) i index = some (A ++ L ++ x :: H1 ++ h :: R ++ B) := by
          have := swap_segments' (A ++ L) H1 (R ++ B) h x index i hidx (by simp [hi]; omega)
          simpa using this
        rw [hs]
        simp only
        obtain ⟨L', H', h1, h2, h3, h4⟩ := ih A (L ++ [x]) (H1 ++ [h]) B R.length (i+1) (index+1)
          (by intro y hy; simp at hy; rcases hy with hy | rfl; exact hL y hy; exact hk)
          (by intro y hy; apply hH; simp at hy ⊢; exact hy.symm) rfl
          (by simp [hidx]; omega) (by simp [hi]; omega)
        refine ⟨L', H', ?_, ?_, h3, h4⟩
        · simpa using h1
        · refine h2.trans ?_
          simp only [List.append_assoc, List.cons_append, List.nil_append]
          refine List.Perm.append_left L ?_
          have : (x :: (H1 ++ h :: R)).Perm (x :: h :: (H1 ++ R)) := List.Perm.cons _ List.perm_middle
          refine this.trans ((List.Perm.swap _ _ _).trans ?_)
          exact List.Perm.cons _ (List.perm_middle.symm)
    · rw [if_neg hk]
      obtain ⟨L', H', h1, h2, h3, h4⟩ := ih A L (H ++ [x]) B R.length (i+1) index hL
          (by intro y hy; simp at hy; rcases hy with hy | rfl; exact hH y hy; simpa using hk) rfl hidx
          (by simp [hi]; omega)
      refine ⟨L', H', ?_, ?_, h3, h4⟩
      · simpa using h1
      · simpa using h2

/-- Specification of the in-place quicksort on the segment `S` between `A` and `B`. -/
theorem sortInternal_spec (h : PN → Nat) (mode : Mode) : ∀ (fuel : Nat) (A S B : List PN) (src to : Nat),
    S.length ≤ fuel → src = A.length → to + 1 = (A ++ S).length →
    ∃ S', sortInternal h mode fuel src to (A ++ S ++ B) = some (A ++ S' ++ B) ∧ S'.Perm S ∧
      (mode ≠ .uniq → ∀ (r : PN → PN → Prop), (∀ a b c, r a b → r b c → r a c) →
        (∀ x ∈ S, ∀ p ∈ S, before h mode x p = true → r x p) → (∀ x ∈ S, ∀ p ∈ S, before h mode x p = false → r p x) →
        S'.Pairwise r) := by
  intro fuel
  induction fuel with
  | zero =>
    intro A S B src to hf hsrc hto
    have : S = [] := by simpa using hf
    subst this
    refine ⟨[], ?_, List.Perm.refl _, fun _ _ _ _ _ => List.Pairwise.nil⟩
    simp only [List.append_nil, List.length_append, List.length_nil] at hto
    unfold sortInternal; rw [if_neg (by omega)]
  | succ fuel ih =>
    intro A S B src to hf hsrc hto
    by_cases hlt : src < to
    · unfold sortInternal; rw [if_pos hlt]
      simp only [List.length_append] at hto
      -- split S at the pivot
      obtain ⟨S1, p, M, last, hS, hS1⟩ : ∃ S1 p M last, S = S1 ++ p :: M ++ [last] ∧ S1.length = (to - src)/2 := by
        have hlen : (to - src)/2 < S.length := by omega
        have e1 : S = S.take ((to-src)/2) ++ S.drop ((to-src)/2) := (List.take_append_drop _ _).symm
        have hd : 2 ≤ (S.drop ((to-src)/2)).length := by rw [List.length_drop]; omega
        rcases hdrop : S.drop ((to-src)/2) with _ | ⟨p, T⟩
        · rw [hdrop] at hd; simp at hd
        · rcases List.eq_nil_or_concat T with hT | ⟨M, last, rfl⟩
          · rw [hdrop, hT] at hd; simp at hd
          · refine ⟨S.take ((to-src)/2), p, M, last, ?_, by rw [List.length_take]; omega⟩
            rw [hdrop] at e1
            simpa using e1
      subst hS
      simp only [List.length_append, List.length_cons, List.length_nil] at hto hf
      have hrd : rd (A ++ (S1 ++ p :: M ++ [last]) ++ B) (src + (to - src)/2) = some p := by
        unfold rd
        rw [hsrc, ← hsrc, ← hS1, show src + S1.length = (A ++ S1).length by simp [hsrc]]
        have : A ++ (S1 ++ p :: M ++ [last]) ++ B = (A ++ S1) ++ p :: (M ++ [last] ++ B) := by simp
        rw [this]; exact get_mid _ _ _
      simp only [hrd]
      have hsw : swap (A ++ (S1 ++ p :: M ++ [last]) ++ B) (src + (to - src)/2) to
          = some (A ++ [] ++ [] ++ (S1 ++ last :: M) ++ p :: B) := by
        have := swap_segments (A ++ S1) M B p last (src + (to - src)/2) to (by simp; omega) (by simp; omega)
        simpa using this
      rw [hsw]
      simp only
      -- the processed part of the segment
      obtain ⟨R1, R2, hR, hn, hR2⟩ : ∃ R1 R2, S1 ++ last :: M = R1 ++ R2 ∧ hiBound mode to - src = R1.length ∧
          (mode ≠ .uniq → R2 = []) := by
        by_cases hm : mode = .uniq
        · refine ⟨(S1 ++ last :: M).take (hiBound mode to - src), (S1 ++ last :: M).drop (hiBound mode to - src),
            (List.take_append_drop _ _).symm, ?_, fun h => absurd hm h⟩
          rw [List.length_take]
          subst hm
          simp only [hiBound, List.length_append, List.length_cons]; omega
        · refine ⟨S1 ++ last :: M, [], by simp, ?_, fun _ => rfl⟩
          have : hiBound mode to = to := by cases mode <;> simp_all [hiBound]
          rw [this, List.length_append, List.length_cons]; omega
      obtain ⟨L, H, h1, h2, h3, h4⟩ := partLoop_spec (fun x => before h mode x p) R1 A [] [] (R2 ++ p :: B)
        (hiBound mode to - src) src src (by simp) (by simp) hn (by simp [hsrc]) (by simp [hsrc])
      rw [hR]
      have e : A ++ [] ++ [] ++ (R1 ++ R2) ++ p :: B = A ++ [] ++ [] ++ R1 ++ (R2 ++ p :: B) := by simp
      rw [e, h1]
      simp only
      have hRlen : R1.length + R2.length = S1.length + M.length + 1 := by
        have := congrArg List.length hR; simp at this; omega
      have hLH : L.length + H.length = R1.length := by
        have := h2.length_eq; simpa using this
      have hpermR : (R1 ++ R2).Perm (S1 ++ M ++ [last]) := by
        rw [← hR]
        have : (S1 ++ last :: M).Perm (S1 ++ (M ++ [last])) :=
          List.Perm.append_left _ (by simpa using (List.perm_append_comm (l₁ := [last]) (l₂ := M)))
        simpa using this
      -- put the pivot in place
      obtain ⟨H2, hsw2, hH2⟩ : ∃ H2, swap (A ++ L ++ H ++ (R2 ++ p :: B)) (A ++ L).length to
          = some (A ++ L ++ p :: H2 ++ B) ∧ H2.Perm (H ++ R2) := by
        rcases hHR : H ++ R2 with _ | ⟨y, T⟩
        · have hH0 : H = [] := (List.append_eq_nil_iff.1 hHR).1
          have hR0 : R2 = [] := (List.append_eq_nil_iff.1 hHR).2
          subst hH0 hR0
          have : to = (A ++ L).length := by simp at hLH hRlen ⊢; omega
          refine ⟨[], ?_, List.Perm.refl _⟩
          rw [← this, swap_self]; simp
        · refine ⟨T ++ [y], ?_, ?_⟩
          · have hlen : H.length + R2.length = T.length + 1 := by
              have := congrArg List.length hHR; simp at this; omega
            have := swap_segments (A ++ L) T B y p (A ++ L).length to rfl (by simp; omega)
            have e2 : A ++ L ++ H ++ (R2 ++ p :: B) = A ++ L ++ y :: T ++ p :: B := by
              have : A ++ L ++ H ++ (R2 ++ p :: B) = A ++ L ++ (H ++ R2) ++ p :: B := by simp
              rw [this, hHR]
            rw [e2, this]; simp
          · simpa using (List.perm_append_comm (l₁ := T) (l₂ := [y]))
      rw [hsw2]
      simp only
      have hH2len : H2.length = H.length + R2.length := by have := hH2.length_eq; simpa using this
      have hperm : (L ++ p :: H2).Perm (S1 ++ p :: M ++ [last]) := by
        have q1 : (L ++ p :: H2).Perm (p :: (L ++ H2)) := List.perm_middle
        have q2 : (L ++ H2).Perm (L ++ (H ++ R2)) := List.Perm.append_left _ hH2
        have q3 : (L ++ (H ++ R2)).Perm (R1 ++ R2) := by
          rw [← List.append_assoc]; exact List.Perm.append_right _ (by simpa using h2)
        have q4 : (p :: (L ++ H2)).Perm (p :: (S1 ++ M ++ [last])) := List.Perm.cons _ (q2.trans (q3.trans hpermR))
        refine q1.trans (q4.trans ?_)
        have : (S1 ++ p :: M ++ [last]).Perm (p :: (S1 ++ (M ++ [last]))) := by
          simpa using (List.perm_middle (a := p) (l₁ := S1) (l₂ := M ++ [last]))
        simpa using this.symm
      -- left recursion
      obtain ⟨L', hl1, hl2, hl3⟩ : ∃ L', (if (A ++ L).length > 0 then
            sortInternal h mode fuel src ((A ++ L).length - 1) (A ++ L ++ p :: H2 ++ B) else some (A ++ L ++ p :: H2 ++ B))
          = some (A ++ L' ++ p :: H2 ++ B) ∧ L'.Perm L ∧
          (mode ≠ .uniq → ∀ (r : PN → PN → Prop), (∀ a b c, r a b → r b c → r a c) →
            (∀ x ∈ L, ∀ p ∈ L, before h mode x p = true → r x p) → (∀ x ∈ L, ∀ p ∈ L, before h mode x p = false → r p x) →
            L'.Pairwise r) := by
        by_cases h0 : (A ++ L).length > 0
        · rw [if_pos h0]
          obtain ⟨L', g1, g2, g3⟩ := ih A L (p :: H2 ++ B) src ((A ++ L).length - 1) (by omega) hsrc (by omega)
          refine ⟨L', ?_, g2, g3⟩
          rw [show A ++ L ++ p :: H2 ++ B = A ++ L ++ (p :: H2 ++ B) by simp, g1]; simp
        · rw [if_neg h0]
          have : L = [] := by
            have : L.length = 0 := by simp at h0; simp [h0]
            exact List.length_eq_zero_iff.1 this
          subst this
          exact ⟨[], rfl, List.Perm.refl _, fun _ _ _ _ _ => List.Pairwise.nil⟩
      rw [hl1]
      simp only
      have hL'len := hl2.length_eq
      -- right recursion
      obtain ⟨H', g1, g2, g3⟩ := ih (A ++ L' ++ [p]) H2 B ((A ++ L).length + 1) to (by omega)
        (by simp [hL'len]; omega) (by simp [hL'len]; omega)
      refine ⟨L' ++ p :: H', ?_, ?_, ?_⟩
      · rw [show A ++ L' ++ p :: H2 ++ B = A ++ L' ++ [p] ++ H2 ++ B by simp, g1]; simp
      · exact ((List.Perm.append hl2 (List.Perm.cons _ g2)).trans hperm)
      · intro hm r htr hb1 hb2
        have hR20 := hR2 hm
        subst hR20
        have memL : ∀ x ∈ L, x ∈ S1 ++ p :: M ++ [last] := fun x hx => hperm.subset (by simp [hx])
        have memH : ∀ x ∈ H2, x ∈ S1 ++ p :: M ++ [last] := fun x hx => hperm.subset (by simp [hx])
        have memp : p ∈ S1 ++ p :: M ++ [last] := by simp
        have rL : ∀ x ∈ L, r x p := fun x hx => hb1 x (memL x hx) p memp (h3 x hx)
        have rH : ∀ y ∈ H2, r p y := by
          intro y hy
          have : y ∈ H := by have := hH2.subset hy; simpa using this
          exact hb2 y (memH y hy) p memp (h4 y this)
        refine List.pairwise_append.2 ⟨?_, List.pairwise_cons.2 ⟨?_, ?_⟩, ?_⟩
        · exact hl3 hm r htr (fun x hx q hq => hb1 x (memL x hx) q (memL q hq)) (fun x hx q hq => hb2 x (memL x hx) q (memL q hq))
        · intro y hy; exact rH y (g2.subset hy)
        · exact g3 hm r htr (fun x hx q hq => hb1 x (memH x hx) q (memH q hq)) (fun x hx q hq => hb2 x (memH x hx) q (memH q hq))
        · intro x hx y hy
          have hx' := hl2.subset hx
          rcases List.mem_cons.1 hy with rfl | hy
          · exact rL x hx'
          · exact htr _ _ _ (rL x hx') (rH y (g2.subset hy))
    · unfold sortInternal; rw [if_neg hlt]
      refine ⟨S, rfl, List.Perm.refl _, ?_⟩
      intro _ r _ _ _
      have : S.length ≤ 1 := by simp at hto; omega
      match S, this with
      | [], _ => exact List.Pairwise.nil
      | [x], _ => exact List.pairwise_singleton _ _

theorem sortWhole (h : PN → Nat) (mode : Mode) (m : List PN) (hm : m ≠ []) (hlen : m.length < 2^32) :
    ∃ m', sortInternal h mode m.length 0 (lenMinus1 m.length) m = some m' ∧ m'.Perm m ∧
      (mode ≠ .uniq → ∀ (r : PN → PN → Prop), (∀ a b c, r a b → r b c → r a c) →
        (∀ x ∈ m, ∀ p ∈ m, before h mode x p = true → r x p) → (∀ x ∈ m, ∀ p ∈ m, before h mode x p = false → r p x) →
        m'.Pairwise r) := by
  have hpos : 0 < m.length := List.length_pos_iff.2 hm
  have hl1 : lenMinus1 m.length = m.length - 1 := by unfold lenMinus1; omega
  obtain ⟨S', h1, h2, h3⟩ := sortInternal_spec h mode m.length [] m [] 0 (lenMinus1 m.length) (Nat.le_refl _) rfl
    (by simp; omega)
  exact ⟨S', by simpa using h1, h2, h3⟩

/-! ### insertion sort -/
theorem sinkLoop_spec (g : PN → PN → Bool) : ∀ (j : Nat) (P : List PN) (x : PN) (Q : List PN), P.length = j →
    ∃ P1 P2, sinkLoop g j (P ++ x :: Q) = some (P1 ++ x :: P2 ++ Q) ∧ P = P1 ++ P2 ∧
      (∀ y ∈ P2, g y x = true) ∧ (∀ y, P1.getLast? = some y → g y x = false) := by
  intro j
  induction j with
  | zero =>
    intro P x Q hP
    have : P = [] := by simpa using hP
    subst this
    exact ⟨[], [], by simp [sinkLoop], rfl, by simp, by simp⟩
  | succ j ih =>
    intro P x Q hP
    rcases List.eq_nil_or_concat P with h | ⟨P', y, rfl⟩
    · subst h; simp at hP
    · simp only [List.concat_eq_append] at hP ⊢
      have hP' : P'.length = j := by simpa using hP
      have e : P' ++ [y] ++ x :: Q = P' ++ y :: [] ++ x :: Q := by simp
      have r1 : rd (P' ++ [y] ++ x :: Q) j = some y := by
        unfold rd; rw [e, ← hP', List.append_assoc]; exact get_mid _ _ _
      have r2 : rd (P' ++ [y] ++ x :: Q) (j+1) = some x := by
        unfold rd; rw [← hP]; exact get_mid _ _ _
      simp only [sinkLoop, r1, r2]
      by_cases hg : g y x = true
      · rw [if_pos hg, e, swap_segments' P' [] Q y x j (j+1) hP'.symm (by simp [hP'])]
        simp only
        obtain ⟨P1, P2, h1, h2, h3, h4⟩ := ih P' x (y :: Q) hP'
        refine ⟨P1, P2 ++ [y], ?_, by rw [h2]; simp, ?_, h4⟩
        · have e2 : P' ++ x :: [] ++ y :: Q = P' ++ x :: y :: Q := by simp
          rw [e2, h1]; simp
        · intro z hz; simp at hz; rcases hz with hz | rfl; exact h3 z hz; exact hg
      · rw [if_neg hg]
        refine ⟨P' ++ [y], [], by simp, by simp, by simp, ?_⟩
        intro z hz; simp at hz; subst hz; simpa using hg

theorem insLoop_spec (g : PN → PN → Bool) : ∀ (R P : List PN) (n : Nat), n = R.length →
    ∃ m', insLoop g n P.length (P ++ R) = some m' ∧ m'.Perm (P ++ R) ∧
      (∀ (r : PN → PN → Prop), (∀ a b c, r a b → r b c → r a c) →
        (∀ x ∈ P ++ R, ∀ y ∈ P ++ R, g x y = true → r y x) → (∀ x ∈ P ++ R, ∀ y ∈ P ++ R, g x y = false → r x y) →
        P.Pairwise r → m'.Pairwise r) := by
  intro R
  induction R with
  | nil => intro P n hn; subst hn; exact ⟨P, by simp [insLoop], by simp, fun r _ _ _ h => h⟩
  | cons x R ih =>
    intro P n hn
    subst hn
    obtain ⟨P1, P2, h1, h2, h3, h4⟩ := sinkLoop_spec g P.length P x R rfl
    simp only [List.length_cons, insLoop, h1]
    have hlen : P.length + 1 = (P1 ++ x :: P2).length := by rw [h2]; simp; omega
    rw [hlen]
    obtain ⟨m', g1, g2, g3⟩ := ih (P1 ++ x :: P2) R.length rfl
    have hp : (P1 ++ x :: P2 ++ R).Perm (P ++ x :: R) := by
      rw [h2]
      have : (P1 ++ x :: (P2 ++ R)).Perm (P1 ++ (P2 ++ x :: R)) := List.Perm.append_left _ List.perm_middle.symm
      simpa using this
    refine ⟨m', g1, g2.trans hp, ?_⟩
    intro r htr hb1 hb2 hP
    refine g3 r htr (fun a ha b hb => hb1 a (hp.subset ha) b (hp.subset hb)) (fun a ha b hb => hb2 a (hp.subset ha) b (hp.subset hb)) ?_
    rw [h2] at hP
    obtain ⟨q1, q2, q3⟩ := List.pairwise_append.1 hP
    have mx : x ∈ P ++ x :: R := by simp
    have hr1 : ∀ y ∈ P1, r y x := by
      intro y hy
      rcases List.eq_nil_or_concat P1 with h | ⟨P', z, hz⟩
      · subst h; simp at hy
      · simp only [List.concat_eq_append] at hz
        subst hz
        have hzx : r z x := hb2 z (by rw [h2]; simp) x mx (h4 z (by simp))
        rcases List.mem_append.1 hy with hy | hy
        · exact htr _ _ _ ((List.pairwise_append.1 q1).2.2 y hy z (by simp)) hzx
        · simp at hy; subst hy; exact hzx
    refine List.pairwise_append.2 ⟨q1, List.pairwise_cons.2 ⟨?_, q2⟩, ?_⟩
    · intro y hy; exact hb1 y (by rw [h2]; simp [hy]) x mx (h3 y hy)
    · intro y hy z hz
      rcases List.mem_cons.1 hz with rfl | hz
      · exact hr1 y hy
      · exact q3 y hy z hz

theorem insWhole (g : PN → PN → Bool) (m : List PN) :
    ∃ m', insLoop g (m.length - 1) 1 m = some m' ∧ m'.Perm m ∧
      (∀ (r : PN → PN → Prop), (∀ a b c, r a b → r b c → r a c) →
        (∀ x ∈ m, ∀ y ∈ m, g x y = true → r y x) → (∀ x ∈ m, ∀ y ∈ m, g x y = false → r x y) → m'.Pairwise r) := by
  match m with
  | [] => exact ⟨[], by simp [insLoop], List.Perm.refl _, fun _ _ _ _ => List.Pairwise.nil⟩
  | x :: R =>
    obtain ⟨m', h1, h2, h3⟩ := insLoop_spec g R [x] R.length rfl
    exact ⟨m', by simpa using h1, by simpa using h2, fun r t a b => h3 r t a b (List.pairwise_singleton _ _)⟩

/-! ### binary search -/
theorem bsearchLoop_spec (h : PN → Nat) (m : List PN) (xu : Nat)
    (hs : ∀ (a b : Nat) (ha : a < m.length) (hb : b < m.length), a ≤ b → h m[a] ≤ h m[b]) :
    ∀ (fuel : Nat) (i j : Int), 0 ≤ i → j < m.length → j - i < fuel →
      (∃ k : Nat, ∃ hk : k < m.length, bsearchLoop h m xu fuel i j = some (k : Int) ∧ h m[k] = xu) ∨
      (bsearchLoop h m xu fuel i j = some (-1) ∧ ∀ k : Nat, ∀ hk : k < m.length, i ≤ k → (k:Int) ≤ j → h m[k] ≠ xu) := by
  intro fuel
  induction fuel with
  | zero =>
    intro i j hi hj hf
    right
    unfold bsearchLoop
    rw [if_neg (by omega)]
    exact ⟨rfl, fun k _ _ _ => by omega⟩
  | succ fuel ih =>
    intro i j hi hj hf
    unfold bsearchLoop
    by_cases hij : i ≤ j
    · rw [if_pos hij]
      have hk : j + (i - j).tdiv 2 = j - (j - i) / 2 := by
        have : (i - j).tdiv 2 = -((j - i) / 2) := by
          rw [← Int.neg_sub j i, Int.neg_tdiv, Int.tdiv_eq_ediv_of_nonneg (by omega)]
        omega
      simp only [hk]
      have hk0 : ¬ (j - (j-i)/2 < 0) := by omega
      rw [if_neg hk0]
      obtain ⟨k, hkk⟩ : ∃ k : Nat, j - (j-i)/2 = (k:Int) := ⟨(j - (j-i)/2).toNat, by omega⟩
      have hkm : k < m.length := by omega
      rw [hkk, Int.toNat_natCast, List.getElem?_eq_getElem hkm]
      simp only
      by_cases he : h m[k] = xu
      · rw [if_pos he]; exact Or.inl ⟨k, hkm, rfl, he⟩
      · rw [if_neg he]
        by_cases hg : h m[k] > xu
        · rw [if_pos hg]
          rcases ih i (k-1) hi (by omega) (by omega) with hL | ⟨hR, hR2⟩
          · exact Or.inl hL
          · refine Or.inr ⟨hR, ?_⟩
            intro k' hk' h1 h2 hc
            by_cases hlt : (k':Int) ≤ k - 1
            · exact hR2 k' hk' h1 hlt hc
            · have := hs k k' hkm hk' (by omega); omega
        · rw [if_neg hg]
          rcases ih (k+1) j (by omega) hj (by omega) with hL | ⟨hR, hR2⟩
          · exact Or.inl hL
          · refine Or.inr ⟨hR, ?_⟩
            intro k' hk' h1 h2 hc
            by_cases hlt : (k:Int) + 1 ≤ k'
            · exact hR2 k' hk' hlt h2 hc
            · have := hs k' k hk' hkm (by omega); omega
    · rw [if_neg hij]
      exact Or.inr ⟨rfl, fun k _ _ _ => by omega⟩

end Potion.Sorting
