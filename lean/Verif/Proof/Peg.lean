import Verif.Model.Peg
/-! Parsing expressions: more fuel does not change a result, and rules for deriving results without fuel. -/
namespace Potion.Peg
open Potion

theorem run_mono {rule : NT → PExp} {f : Nat} : ∀ {e i r}, run rule f e i = some r → run rule (f + 1) e i = some r := by
  induction f with
  | zero => intro e i r h; simp [run] at h
  | succ f ih =>
    intro e i r h
    cases e with
    | chr p => cases i <;> simpa [run] using h
    | lit s => simpa [run] using h
    | eps => simpa [run] using h
    | seq a b =>
      rw [run] at h ⊢
      cases ha : run rule f a i with
      | none => rw [ha] at h; simp at h
      | some x =>
        rw [ha] at h; rw [ih ha]
        cases x with
        | none => simpa using h
        | some x =>
          obtain ⟨v, i'⟩ := x
          simp only at h ⊢
          cases hb : run rule f b i' with
          | none => rw [hb] at h; simp at h
          | some y => rw [hb] at h; rw [ih hb]; exact h
    | alt a b =>
      rw [run] at h ⊢
      cases ha : run rule f a i with
      | none => rw [ha] at h; simp at h
      | some x =>
        rw [ha] at h; rw [ih ha]
        cases x with
        | none => simp only at h ⊢; exact ih h
        | some x => exact h
    | star a =>
      rw [run] at h ⊢
      cases ha : run rule f a i with
      | none => rw [ha] at h; simp at h
      | some x =>
        rw [ha] at h; rw [ih ha]
        cases x with
        | none => simpa using h
        | some x =>
          obtain ⟨v, i'⟩ := x
          simp only at h ⊢
          cases hb : run rule f (.star a) i' with
          | none => rw [hb] at h; simp at h
          | some y => rw [hb] at h; rw [ih hb]; exact h
    | not a =>
      rw [run] at h ⊢
      cases ha : run rule f a i with
      | none => rw [ha] at h; simp at h
      | some x => rw [ha] at h; rw [ih ha]; exact h
    | nt n => rw [run] at h ⊢; exact ih h
    | cap a =>
      rw [run] at h ⊢
      cases ha : run rule f a i with
      | none => rw [ha] at h; simp at h
      | some x => rw [ha] at h; rw [ih ha]; exact h
    | act g a =>
      rw [run] at h ⊢
      cases ha : run rule f a i with
      | none => rw [ha] at h; simp at h
      | some x => rw [ha] at h; rw [ih ha]; exact h

theorem run_le {rule : NT → PExp} {f g : Nat} (hfg : f ≤ g) {e i r} (h : run rule f e i = some r) : run rule g e i = some r := by
  induction hfg with
  | refl => exact h
  | step _ ih => exact run_mono ih

/-- `e` on input `i` gives `r`: failure, or a value and the rest. -/
def Gives (rule : NT → PExp) (e : PExp) (i : List Byte) (r : Res) : Prop := ∃ f, run rule f e i = some r

variable {rule : NT → PExp}

theorem Gives.unique {e i r r'} (h : Gives rule e i r) (h' : Gives rule e i r') : r = r' := by
  obtain ⟨f, h⟩ := h
  obtain ⟨g, h'⟩ := h'
  have := (run_le (Nat.le_max_left f g) h).symm.trans (run_le (Nat.le_max_right f g) h')
  simpa using this

theorem Gives.seq {a b i v i' w i''} (ha : Gives rule a i (some (v, i'))) (hb : Gives rule b i' (some (w, i''))) :
    Gives rule (.seq a b) i (some (.pair v w, i'')) := by
  obtain ⟨f, ha⟩ := ha
  obtain ⟨g, hb⟩ := hb
  refine ⟨max f g + 1, ?_⟩
  simp only [run, run_le (Nat.le_max_left f g) ha, run_le (Nat.le_max_right f g) hb]

theorem Gives.seqFail1 {a b i} (ha : Gives rule a i none) : Gives rule (.seq a b) i none := by
  obtain ⟨f, ha⟩ := ha
  exact ⟨f + 1, by simp only [run, ha]⟩

theorem Gives.seqFail2 {a b i v i'} (ha : Gives rule a i (some (v, i'))) (hb : Gives rule b i' none) :
    Gives rule (.seq a b) i none := by
  obtain ⟨f, ha⟩ := ha
  obtain ⟨g, hb⟩ := hb
  refine ⟨max f g + 1, ?_⟩
  simp only [run, run_le (Nat.le_max_left f g) ha, run_le (Nat.le_max_right f g) hb]

theorem Gives.alt1 {a b i r} (ha : Gives rule a i (some r)) : Gives rule (.alt a b) i (some r) := by
  obtain ⟨f, ha⟩ := ha
  exact ⟨f + 1, by simp only [run, ha]⟩

theorem Gives.alt2 {a b i r} (ha : Gives rule a i none) (hb : Gives rule b i r) : Gives rule (.alt a b) i r := by
  obtain ⟨f, ha⟩ := ha
  obtain ⟨g, hb⟩ := hb
  refine ⟨max f g + 1, ?_⟩
  simp only [run, run_le (Nat.le_max_left f g) ha, run_le (Nat.le_max_right f g) hb]

theorem Gives.starNil {a i} (ha : Gives rule a i none) : Gives rule (.star a) i (some (.tup [], i)) := by
  obtain ⟨f, ha⟩ := ha
  exact ⟨f + 1, by simp only [run, ha]⟩

theorem Gives.starCons {a i v i' l i''} (ha : Gives rule a i (some (v, i'))) (hb : Gives rule (.star a) i' (some (.tup l, i''))) :
    Gives rule (.star a) i (some (.tup (v :: l), i'')) := by
  obtain ⟨f, ha⟩ := ha
  obtain ⟨g, hb⟩ := hb
  refine ⟨max f g + 1, ?_⟩
  simp only [run, run_le (Nat.le_max_left f g) ha, run_le (Nat.le_max_right f g) hb]

theorem Gives.not1 {a i} (ha : Gives rule a i none) : Gives rule (.not a) i (some (.none, i)) := by
  obtain ⟨f, ha⟩ := ha
  exact ⟨f + 1, by simp only [run, ha]⟩

theorem Gives.not2 {a i r} (ha : Gives rule a i (some r)) : Gives rule (.not a) i none := by
  obtain ⟨f, ha⟩ := ha
  exact ⟨f + 1, by simp only [run, ha]⟩

theorem Gives.nt {n i r} (h : Gives rule (rule n) i r) : Gives rule (.nt n) i r := by
  obtain ⟨f, h⟩ := h
  exact ⟨f + 1, by simpa only [run] using h⟩

theorem Gives.cap {a t i' v} (ha : Gives rule a (t ++ i') (some (v, i'))) : Gives rule (.cap a) (t ++ i') (some (.str t, i')) := by
  obtain ⟨f, ha⟩ := ha
  refine ⟨f + 1, ?_⟩
  simp only [run, ha]
  simp

theorem Gives.capFail {a i} (ha : Gives rule a i none) : Gives rule (.cap a) i none := by
  obtain ⟨f, ha⟩ := ha
  exact ⟨f + 1, by simp only [run, ha]⟩

theorem Gives.act {g : Tree → Tree} {a i v i'} (ha : Gives rule a i (some (v, i'))) : Gives rule (.act g a) i (some (g v, i')) := by
  obtain ⟨f, ha⟩ := ha
  exact ⟨f + 1, by simp only [run, ha]⟩

theorem Gives.actFail {g : Tree → Tree} {a i} (ha : Gives rule a i none) : Gives rule (.act g a) i none := by
  obtain ⟨f, ha⟩ := ha
  exact ⟨f + 1, by simp only [run, ha]⟩

theorem Gives.eps {i} : Gives rule .eps i (some (.none, i)) := ⟨1, rfl⟩

end Potion.Peg
