import Verif.Model.X86
import Verif.Model.Jit
import Verif.Proof.Bytes
/-!
Decoding what the generator writes: one lemma for each kind of instruction.
-/
namespace Potion.Jit
open Potion Potion.X86

/-- The bytes `bs` are in the code at offset `p`. -/
def At (code : List Byte) (p : Nat) (bs : List Byte) : Prop := ∃ t, code.drop p = bs ++ t

theorem At.left {code p a b} (h : At code p (a ++ b)) : At code p a := by
  obtain ⟨t, h⟩ := h
  exact ⟨b ++ t, by rw [h, List.append_assoc]⟩

theorem At.right {code p a b} (h : At code p (a ++ b)) : At code (p + a.length) b := by
  obtain ⟨t, h⟩ := h
  refine ⟨t, ?_⟩
  rw [← List.drop_drop, h, List.append_assoc, List.drop_left]

theorem imm32_asmI (x : Int) (hx : -(2^31) ≤ x ∧ x < 2^31) (t : List Byte) : imm32 (asmI x ++ t) = some (x, 4) := by
  have key : ∀ v : BitVec 32, imm32 (Bytes.leBytes 4 v.toNat ++ t) = some (v.toInt, 4) := by
    intro v
    simp only [Bytes.leBytes, List.cons_append, List.nil_append, imm32]
    congr 3
    apply BitVec.eq_of_toNat_eq
    have hv := v.isLt
    simp only [BitVec.toNat_append, BitVec.toNat_ofNat, Nat.shiftLeft_eq]
    rw [← Nat.shiftLeft_eq, ← Nat.shiftLeft_eq, ← Nat.shiftLeft_eq,
      ← Nat.shiftLeft_add_eq_or_of_lt (by omega), ← Nat.shiftLeft_add_eq_or_of_lt (by omega),
      ← Nat.shiftLeft_add_eq_or_of_lt (by omega)]
    simp only [Nat.shiftLeft_eq]
    omega
  rw [asmI, key, BitVec.toInt_ofInt]
  congr 2
  simp only [Int.bmod]
  omega

theorem imm64_asmN (v : PN) (t : List Byte) : imm64 (asmN v ++ t) = some (v, 8) := by
  unfold asmN
  simp only [Bytes.leBytes, List.cons_append, List.nil_append, imm64]
  congr 2
  apply BitVec.eq_of_toNat_eq
  have hv := v.isLt
  simp only [BitVec.toNat_append, BitVec.toNat_ofNat]
  rw [← Nat.shiftLeft_add_eq_or_of_lt (by omega), ← Nat.shiftLeft_add_eq_or_of_lt (by omega),
    ← Nat.shiftLeft_add_eq_or_of_lt (by omega), ← Nat.shiftLeft_add_eq_or_of_lt (by omega),
    ← Nat.shiftLeft_add_eq_or_of_lt (by omega), ← Nat.shiftLeft_add_eq_or_of_lt (by omega),
    ← Nat.shiftLeft_add_eq_or_of_lt (by omega)]
  simp only [Nat.shiftLeft_eq]
  omega

theorem asmI_length (x) : (asmI x).length = 4 := Bytes.leBytes_length 4 _
theorem asmN_length (x) : (asmN x).length = 8 := Bytes.leBytes_length 8 _

theorem movEbp_length (op x) : (movEbp op x).length = if x > 15 then 5 else 2 := by
  unfold movEbp; split <;> simp [asmI_length]

/-- Displacement of a slot. -/
def disp (x : Int) : Int := -((x + 1) * 8)

/-- ModRM bytes 0x45, 0x4d, ..., 0x7d. -/
theorem modrm_movEbp (r : Nat) (g : Nat) (hg : g < 8) (x : Int) (hx : 0 ≤ x ∧ x < 2^20) (t : List Byte) :
    modrm r 0 (movEbp (BitVec.ofNat 8 (0x45 + 8 * g)) x ++ t) =
      some (g + r, .mem 5 (disp x), (movEbp (BitVec.ofNat 8 (0x45 + 8 * g)) x).length) := by
  unfold movEbp disp
  split
  · have h1 : (BitVec.ofNat 8 (0x45 + 8 * g) + 0x40#8).toNat = 0x85 + 8 * g := by
      rw [BitVec.toNat_add, BitVec.toNat_ofNat]; simp; omega
    simp only [List.cons_append, modrm, h1]
    rw [show (0x85 + 8 * g) / 64 = 2 by omega, show (0x85 + 8 * g) % 8 = 5 by omega,
      show (0x85 + 8 * g) / 8 % 8 = g by omega]
    simp only [imm32_asmI (-((x + 1) * 8)) (by omega) t]
    simp [asmI_length]
  · have h1 : (BitVec.ofNat 8 (0x45 + 8 * g)).toNat = 0x45 + 8 * g := by
      rw [BitVec.toNat_ofNat]; omega
    simp only [List.cons_append, List.nil_append, modrm, h1]
    rw [show (0x45 + 8 * g) / 64 = 1 by omega, show (0x45 + 8 * g) % 8 = 5 by omega,
      show (0x45 + 8 * g) / 8 % 8 = g by omega]
    have : (BitVec.ofInt 8 (0x100 - (x + 1) * 8)).toInt = -((x + 1) * 8) := by
      rw [BitVec.toInt_ofInt]; simp only [Int.bmod]; omega
    simp [imm8, this]

/-- The address of slot `x` of the frame with base `bp`. -/
def slot (bp : PN) (x : Int) : PN := bp + BitVec.ofInt 64 (disp x)

/-- Result of the instruction `i` of `n` bytes at `m.rip`. -/
theorem step_of {ext code} {m : Mach} {i n} (h : decode (code.drop m.rip) = some (i, n)) :
    m.step ext code = m.exec ext (m.rip + n) i := by
  unfold Mach.step; rw [h]

/-- Instructions whose bytes are all known. -/
theorem step_bytes {ext code} {m : Mach} {bs i} (h : At code m.rip bs) (hd : ∀ t, decode (bs ++ t) = some (i, bs.length)) :
    m.step ext code = m.exec ext (m.rip + bs.length) i := by
  obtain ⟨t, h⟩ := h
  exact step_of (by rw [h, hd])

theorem decode_ld (g : Nat) (hg : g < 8) (x : Int) (hx : 0 ≤ x ∧ x < 2^20) (t : List Byte) :
    decode (0x48#8 :: 0x8B#8 :: movEbp (BitVec.ofNat 8 (0x45 + 8 * g)) x ++ t) =
      some (.mov (.reg g) (.mem 5 (disp x)), (0x48#8 :: 0x8B#8 :: movEbp (BitVec.ofNat 8 (0x45 + 8 * g)) x).length) := by
  have := modrm_movEbp 0 g hg x hx t
  simp only [List.cons_append] at this ⊢
  simp [decode, decodeW, this]

theorem decode_st (g : Nat) (hg : g < 8) (x : Int) (hx : 0 ≤ x ∧ x < 2^20) (t : List Byte) :
    decode (0x48#8 :: 0x89#8 :: movEbp (BitVec.ofNat 8 (0x45 + 8 * g)) x ++ t) =
      some (.mov (.mem 5 (disp x)) (.reg g), (0x48#8 :: 0x89#8 :: movEbp (BitVec.ofNat 8 (0x45 + 8 * g)) x).length) := by
  have := modrm_movEbp 0 g hg x hx t
  simp only [List.cons_append] at this ⊢
  simp [decode, decodeW, this]

theorem decode_st4c (g : Nat) (hg : g < 8) (x : Int) (hx : 0 ≤ x ∧ x < 2^20) (t : List Byte) :
    decode (0x4c#8 :: 0x89#8 :: movEbp (BitVec.ofNat 8 (0x45 + 8 * g)) x ++ t) =
      some (.mov (.mem 5 (disp x)) (.reg (g + 8)), (0x4c#8 :: 0x89#8 :: movEbp (BitVec.ofNat 8 (0x45 + 8 * g)) x).length) := by
  have := modrm_movEbp 8 g hg x hx t
  simp only [List.cons_append] at this ⊢
  simp [decode, decodeW, this]

theorem decode_movi (v : PN) (t : List Byte) :
    decode ([0x48#8, 0xB8#8] ++ asmN v ++ t) = some (.movi 0 v, ([0x48#8, 0xB8#8] ++ asmN v).length) := by
  have := imm64_asmN v t
  simp only [List.cons_append, List.nil_append] at this ⊢
  simp [decode, decodeW, this, asmN_length]

theorem decode_jmp32 (d : Int) (hd : -(2^31) ≤ d ∧ d < 2^31) (t : List Byte) :
    decode ([0xE9#8] ++ asmI d ++ t) = some (.jmp d, ([0xE9#8] ++ asmI d).length) := by
  have := imm32_asmI d hd t
  simp only [List.cons_append, List.nil_append] at this ⊢
  simp [decode, this, asmI_length]

theorem decode_addi (d : Int) (hd : -(2^31) ≤ d ∧ d < 2^31) (t : List Byte) :
    decode ([0x48#8, 0x05#8] ++ asmI d ++ t) = some (.alui .add 0 d, ([0x48#8, 0x05#8] ++ asmI d).length) := by
  have := imm32_asmI d hd t
  simp only [List.cons_append, List.nil_append] at this ⊢
  simp [decode, decodeW, this, asmI_length]

theorem decode_subsp (d : Int) (hd : -(2^31) ≤ d ∧ d < 2^31) (t : List Byte) :
    decode ([0x48#8, 0x81#8, 0xEC#8] ++ asmI d ++ t) = some (.alui .sub 4 d, ([0x48#8, 0x81#8, 0xEC#8] ++ asmI d).length) := by
  have := imm32_asmI d hd t
  simp only [List.cons_append, List.nil_append] at this ⊢
  simp [decode, decodeW, modrm, this, asmI_length]

theorem decode_je (d : Byte) (t : List Byte) : decode ([0x74#8, d] ++ t) = some (.jcc .e d.toInt, 2) := rfl
theorem decode_jmp8 (d : Byte) (t : List Byte) : decode ([0xEB#8, d] ++ t) = some (.jmp d.toInt, 2) := rfl

/-- `k` instructions lead from one state to another. -/
inductive Run (ext : Ext) (code : List Byte) : Nat → Mach → Mach → Prop
  | refl (m) : Run ext code 0 m m
  | cons {k m m1 m2} : m.step ext code = .run m1 → Run ext code k m1 m2 → Run ext code (k+1) m m2

theorem Run.trans {ext code j k m m1 m2} (h : Run ext code j m m1) (h' : Run ext code k m1 m2) :
    Run ext code (j + k) m m2 := by
  induction h with
  | refl _ => simpa using h'
  | cons s _ ih => rw [Nat.add_right_comm]; exact .cons s (ih h')

theorem Run.steps {ext code k m m1} (h : Run ext code k m m1) (n : Nat) :
    m.steps ext code (k + n) = m1.steps ext code n := by
  induction h with
  | refl _ => rw [Nat.zero_add]
  | cons s _ ih =>
    rw [Nat.add_right_comm, Mach.steps, s]
    exact ih

theorem Run.still {ext code k m m1} (h : Run ext code k m m1) : m.steps ext code k = none := by
  have := h.steps 0
  simpa [Mach.steps] using this

end Potion.Jit
