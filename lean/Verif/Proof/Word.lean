import Verif.Model.Word
namespace Potion

theorem pnInt_eq (x : PN) : pnInt x = x.toInt / 2 := by
  unfold pnInt
  rw [BitVec.toInt_sshiftRight]
  simp [Int.shiftRight_eq_div_pow]

theorem pnNum_toInt (i : Int) : (pnNum i).toInt = Int.bmod (2 * i + 1) (2^64) := by
  unfold pnNum
  rw [BitVec.toInt_add, BitVec.toInt_shiftLeft]
  simp only [BitVec.toNat_ofInt, Nat.shiftLeft_eq, BitVec.toInt_one (show 1 < 64 by omega)]
  simp only [Int.bmod]
  omega

theorem pnInt_pnNum (i : Int) : pnInt (pnNum i) = Int.bmod i (2^63) := by
  rw [pnInt_eq, pnNum_toInt]
  simp only [Int.bmod]
  omega

theorem pnInt_pnNum_of_fits {i : Int} (h : Fits63 i) : pnInt (pnNum i) = i := by
  rw [pnInt_pnNum]
  unfold Fits63 at h
  simp only [Int.bmod]
  omega

theorem isInt_iff (v : PN) : isInt v = true ↔ v.toNat % 2 = 1 := by
  unfold isInt
  rw [bne_iff_ne, ne_eq, ← BitVec.toNat_inj]
  simp only [BitVec.toNat_and, BitVec.toNat_ofNat]
  have : v.toNat &&& 1 = v.toNat % 2 := Nat.and_one_is_mod _
  simp [this]

theorem isInt_pnNum (i : Int) : isInt (pnNum i) = true := by
  rw [isInt_iff]
  unfold pnNum
  simp only [BitVec.toNat_add, BitVec.toNat_shiftLeft, Nat.shiftLeft_eq, BitVec.toNat_ofNat]
  omega

theorem pnInt_fits (x : PN) : Fits63 (pnInt x) := by
  rw [pnInt_eq]
  have h1 := BitVec.toInt_lt (x := x)
  have h2 := BitVec.le_toInt (x := x)
  unfold Fits63
  omega

theorem toNat_pnNum (i : Int) : ((pnNum i).toNat : Int) = (2 * i + 1) % 2^64 := by
  unfold pnNum
  simp only [BitVec.toNat_add, BitVec.toNat_shiftLeft, Nat.shiftLeft_eq, BitVec.toNat_ofNat,
    BitVec.toNat_ofInt]
  omega

theorem toInt_of_isInt {v : PN} (h : isInt v = true) : v.toInt = 2 * pnInt v + 1 := by
  rw [isInt_iff] at h
  rw [pnInt_eq]
  have : v.toInt % 2 = 1 := by
    rw [BitVec.toInt_eq_toNat_bmod]; simp only [Int.bmod]; omega
  omega

theorem pnNum_pnInt {v : PN} (h : isInt v = true) : pnNum (pnInt v) = v := by
  apply BitVec.eq_of_toInt_eq
  rw [pnNum_toInt, ← toInt_of_isInt h]
  have h1 := BitVec.toInt_lt (x := v)
  have h2 := BitVec.le_toInt (x := v)
  simp only [Int.bmod]
  omega

theorem pnNum_inj {i j : Int} (hi : Fits63 i) (hj : Fits63 j) : pnNum i = pnNum j ↔ i = j := by
  constructor
  · intro h
    have := congrArg pnInt h
    rwa [pnInt_pnNum_of_fits hi, pnInt_pnNum_of_fits hj] at this
  · rintro rfl; rfl

end Potion
