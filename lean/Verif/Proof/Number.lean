import Verif.Proof.Word
import Verif.Model.Number
import Verif.Spec.Word
namespace Potion
open Spec

theorem denotes_iff (w : PN) (i : Int) : Denotes w i ↔ isInt w = true ∧ pnInt w = i := by
  unfold Denotes
  constructor
  · intro h
    have h2 : isInt w = true := by
      rw [isInt_iff]
      rw [BitVec.toInt_eq_toNat_bmod] at h
      simp only [Int.bmod] at h
      omega
    refine ⟨h2, ?_⟩
    rw [toInt_of_isInt h2] at h
    omega
  · rintro ⟨h1, h2⟩
    rw [toInt_of_isInt h1, h2]

theorem Spec.Denotes.inRange {w : PN} {i : Int} (h : Denotes w i) : InRange i := by
  have := (denotes_iff w i).1 h
  rw [← this.2]
  exact pnInt_fits w

theorem denotes_pnNum {i : Int} (h : InRange i) : Denotes (pnNum i) i := by
  rw [denotes_iff]
  exact ⟨isInt_pnNum i, pnInt_pnNum_of_fits h⟩

theorem denotes_pnNum_wrap (i : Int) : Denotes (pnNum i) (Int.bmod i (2^63)) := by
  rw [denotes_iff]
  exact ⟨isInt_pnNum i, pnInt_pnNum i⟩

theorem wrapsTo_bmod (i : Int) : WrapsTo i (Int.bmod i (2^63)) := by
  constructor
  · constructor <;> simp only [Int.bmod] <;> omega
  · simp only [Int.bmod]; omega

theorem wrapsTo_iff (i r : Int) : WrapsTo i r ↔ r = Int.bmod i (2^63) := by
  constructor
  · rintro ⟨⟨h1, h2⟩, h3⟩
    simp only [Int.bmod]; omega
  · rintro rfl; exact wrapsTo_bmod i

theorem denotes_pnNum_iff (i r : Int) : Denotes (pnNum i) r ↔ WrapsTo i r := by
  rw [wrapsTo_iff]
  constructor
  · intro h
    have h1 := ((denotes_iff _ _).1 h).2
    rw [pnInt_pnNum] at h1
    exact h1.symm
  · rintro rfl; exact denotes_pnNum_wrap i

theorem Spec.Denotes.unique {w : PN} {i j : Int} (h : Denotes w i) (h' : Denotes w j) : i = j := by
  unfold Denotes at *; omega

theorem Spec.Denotes.eq_pnNum {w : PN} {i : Int} (h : Denotes w i) : w = pnNum i := by
  have := (denotes_iff w i).1 h
  rw [← this.2, pnNum_pnInt this.1]

end Potion
