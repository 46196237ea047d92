import Verif.Proof.JitUnit
import Verif.Model.Objects
/-!
The machine code that finds an instance variable.
-/
namespace Potion.Jit
open Potion Potion.X86 Potion.Obj

variable {ext : Ext} {code : List Byte}

theorem leBytes_asmI (u : BitVec 32) : Bytes.leBytes 4 u.toNat = asmI u.toInt := by
  unfold asmI
  rw [BitVec.ofInt_toInt]

theorem decode_cmpedi (d : Int) (hd : -(2^31) ≤ d ∧ d < 2^31) (t : List Byte) :
    decode ([0x81#8, 0xFF#8] ++ asmI d ++ t) = some (.cmpd (.reg 7) d, ([0x81#8, 0xFF#8] ++ asmI d).length) := by
  have := imm32_asmI d hd t
  simp only [List.cons_append, List.nil_append] at this ⊢
  simp [decode, modrm, this, asmI_length]

theorem decode_b8 (a b c d : Byte) (t : List Byte) : decode (0xB8#8 :: a :: b :: c :: d :: t) = some (.movi32 0 (d ++ c ++ b ++ a), 5) := rfl

theorem decode_movi32 (i : Nat) (hi : i < 2^31) (t : List Byte) :
    decode ([0xB8#8] ++ asmI i ++ t) = some (.movi32 0 (BitVec.ofNat 32 i), ([0xB8#8] ++ asmI i).length) := by
  have h := imm32_asmI i (by omega) t
  have l := asmI_length i
  match e : asmI i, l with
  | [a, b, c, d], _ =>
    rw [e] at h
    simp only [List.cons_append, List.nil_append, imm32, Option.some.injEq, Prod.mk.injEq] at h ⊢
    rw [decode_b8]
    have : (d ++ c ++ b ++ a : BitVec 32) = BitVec.ofNat 32 i := by
      apply BitVec.eq_of_toInt_eq
      rw [h.1, BitVec.toInt_ofNat']
      simp only [Int.bmod]; omega
    rw [this]; rfl

theorem ivars_reach (uniq : Name → BitVec 32) : ∀ (l : List Name) (i : Nat) (p : Nat) (m : Mach), i + l.length < 2^31 → aligned (m.regs 4) = true →
    At code p (ivarsCode i (l.map uniq)) →
    Reach ext code (at_ m p) fun m1 => ∃ m', m1.step ext code = .ret m' (m.mem (m.regs 4)) ∧ m'.mem = m.mem ∧
      (∀ r, r ≠ 0 → r ≠ 4 → m'.regs r = m.regs r) ∧ m'.regs 4 = m.regs 4 + 8#64 ∧
      (m'.regs 0).toInt = match ivfunc uniq l i ((m.regs 7).setWidth 32) with | some n => (n : Int) | none => -1
  | [], i, p, m, hl, hal, h => by
    have o1 := h.left
    have r1 := h.right
    have o1' : At code p ([0x48#8, 0xB8#8] ++ asmN (-1#64)) := o1
    have r1' := r1.cast (q := p + 10) (by rfl)
    refine R_movi _ o1' ?_
    refine .done ⟨at_ ((m.set 0 (-1#64)).set 4 (m.regs 4 + 8#64)) (p + 10), ?_, rfl, ?_, rfl, rfl⟩
    · rw [step_bytes (i := .ret) r1' (fun _ => rfl)]
      show (if aligned (m.regs 4) then _ else _) = _
      rw [if_pos hal]; rfl
    · intro r h0 h4
      show (if r = 4 then _ else if r = 0 then _ else _) = _
      rw [if_neg h4, if_neg h0]
  | v :: l, i, p, m, hl, hal, h => by
    have h0 : At code p (([0x81#8, 0xFF#8] ++ Bytes.leBytes 4 (uniq v).toNat) ++ ([0x75#8, 6#8] ++ (([0xB8#8] ++ asmI i) ++ ([0xC3#8] ++ ivarsCode (i + 1) (l.map uniq))))) := h
    rw [leBytes_asmI] at h0
    have a1 := h0.left
    have h2 := h0.right.cast (q := p + 6) (by simp [asmI_length])
    have a2 := h2.left
    have h3 := h2.right.cast (q := p + 8) (by simp)
    have a3 := h3.left
    have h4 := h3.right.cast (q := p + 13) (by simp [asmI_length])
    have a4 := h4.left
    have a5 := h4.right.cast (q := p + 14) (by simp)
    have hb : -(2^31) ≤ (uniq v).toInt ∧ (uniq v).toInt < 2^31 := by
      have := (uniq v).toInt_lt; have := (uniq v).le_toInt; omega
    simp only [List.length_cons] at hl
    let u := (m.regs 7).setWidth 32
    let c1 : Mach := m.flags (u - BitVec.ofInt 32 (uniq v).toInt) (some (!fits 32 (u.toInt - (BitVec.ofInt 32 (uniq v).toInt).toInt)))
    refine R_bytes c1 _ (.cmpd (.reg 7) (uniq v).toInt) (decode_cmpedi _ hb) a1 rfl ?_
    refine R_cast (p + 6) (by simp [asmI_length]) ?_
    have hz : c1.zf = (u - uniq v == 0#32) := by
      show (u - BitVec.ofInt 32 (uniq v).toInt == 0#32) = _
      rw [BitVec.ofInt_toInt]
    by_cases e : uniq v = u
    · refine R_no 0x75#8 6#8 .ne (fun _ => rfl) a2 ?_ ?_
      · show some (!c1.zf) = _
        rw [hz, e]; simp
      refine R_bytes (c1.set32 0 (BitVec.ofNat 32 i)) _ (.movi32 0 (BitVec.ofNat 32 i)) (decode_movi32 i (by omega)) a3 rfl ?_
      refine R_cast (p + 13) (by simp [asmI_length]) ?_
      refine .done ⟨at_ ((c1.set32 0 (BitVec.ofNat 32 i)).set 4 (m.regs 4 + 8#64)) (p + 13), ?_, rfl, ?_, rfl, ?_⟩
      · rw [step_bytes (i := .ret) a4 (fun _ => rfl)]
        show (if aligned (m.regs 4) then _ else _) = _
        rw [if_pos hal]; rfl
      · intro r h0 h4
        show (if r = 4 then _ else if r = 0 then _ else _) = _
        rw [if_neg h4, if_neg h0]; rfl
      · show ((BitVec.ofNat 32 i).setWidth 64).toInt = _
        rw [ivfunc, if_pos e]
        show _ = (i : Int)
        rw [BitVec.toInt_eq_toNat_cond]
        simp only [BitVec.toNat_setWidth, BitVec.toNat_ofNat]
        omega
    · refine R_yes (p + 14) 6 0x75#8 6#8 .ne (fun _ => rfl) a2 rfl (by omega) ?_ ?_
      · show some (!c1.zf) = _
        rw [hz]
        congr 1
        simp only [Bool.not_eq_true', beq_eq_false_iff_ne, ne_eq]
        intro h
        apply e
        have h' : u.toNat = (uniq v).toNat := by
          have := congrArg BitVec.toNat h
          rw [BitVec.toNat_sub] at this
          have := u.isLt; have := (uniq v).isLt
          simp at *
          omega
        exact (BitVec.eq_of_toNat_eq h').symm
      have k := ivars_reach uniq l (i + 1) (p + 14) c1 (by omega) hal a5
      refine k.mono ?_
      intro m1 hm
      rw [ivfunc, if_neg e]
      exact hm

end Potion.Jit
