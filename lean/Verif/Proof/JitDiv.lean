import Verif.Proof.JitOps
import Verif.Proof.Word
/-!
Division and remainder in machine code: 32-bit arithmetic.
-/
namespace Potion.Jit
open Potion Potion.X86 Potion.Vm

theorem toInt_ext32 (a : BitVec 32) : (a.sshiftRight 31 ++ a : BitVec 64).toInt = a.toInt := by
  have h : (a.sshiftRight 31).toInt = a.toInt / 2^31 := by
    rw [BitVec.toInt_sshiftRight, Int.shiftRight_eq_div_pow]; rfl
  have h1 := BitVec.toInt_lt (x := a)
  have h2 := BitVec.le_toInt (x := a)
  have hi := BitVec.toInt_eq_toNat_bmod (a.sshiftRight 31)
  have lo := BitVec.toInt_eq_toNat_bmod a
  have e := BitVec.toInt_eq_toNat_bmod (a.sshiftRight 31 ++ a : BitVec 64)
  have l1 := (a.sshiftRight 31).isLt
  have l2 := a.isLt
  have e2 : (a.sshiftRight 31 ++ a : BitVec 64).toNat = (a.sshiftRight 31).toNat * 2^32 + a.toNat := by
    show (a.sshiftRight 31 ++ a).toNat = _
    rw [BitVec.toNat_append, Nat.shiftLeft_eq, Nat.mul_comm, ← Nat.two_pow_add_eq_or_of_lt l2]
  rw [e2] at e
  simp only [Int.bmod] at e hi lo
  omega

/-- Untagging in 32 bits. -/
theorem untag32 {x : PN} (hx : isInt x = true) (h : -(2^30) ≤ pnInt x ∧ pnInt x < 2^30) :
    ((x.setWidth 32).sshiftRight 1).toInt = pnInt x := by
  have e := toInt_of_isInt hx
  rw [BitVec.toInt_sshiftRight, Int.shiftRight_eq_div_pow]
  have : (x.setWidth 32).toInt = 2 * pnInt x + 1 := by
    rw [BitVec.toInt_setWidth]
    rw [BitVec.toInt_eq_toNat_bmod] at e
    simp only [Int.bmod] at e ⊢
    omega
  rw [this]
  omega

/-- Tagging in 32 bits: a negative number becomes a positive one. -/
def tagged32 (q : Int) : PN := pnNum (if 0 ≤ q then q else q + 2^31)

theorem tag32 {q : Int} (h : -(2^30) ≤ q ∧ q ≤ 2^30) (a : PN) (ha : a = (BitVec.ofInt 32 q).setWidth 64) :
    ((a + a * 1#64 + BitVec.ofInt 64 1).setWidth 32).setWidth 64 = tagged32 q := by
  subst ha
  apply BitVec.eq_of_toInt_eq
  rw [tagged32, pnNum_toInt]
  rw [BitVec.toInt_eq_toNat_bmod]
  simp only [BitVec.toNat_setWidth, BitVec.mul_one, BitVec.toNat_add, BitVec.toNat_ofInt, Int.bmod]
  split <;> omega

theorem tdiv_bound {i j : Int} (hi : -(2^30) ≤ i ∧ i < 2^30) : -(2^30) ≤ i.tdiv j ∧ i.tdiv j ≤ 2^30 := by
  have h : (i.tdiv j).natAbs ≤ i.natAbs := by
    rw [Int.natAbs_tdiv]; exact Nat.div_le_self _ _
  omega

theorem tmod_bound {i j : Int} (hi : -(2^30) ≤ i ∧ i < 2^30) : -(2^30) ≤ i.tmod j ∧ i.tmod j ≤ 2^30 := by
  have h : (i.tmod j).natAbs ≤ i.natAbs := by
    rw [Int.natAbs_tmod]; exact Nat.mod_le _ _
  omega

/-- The common part of division and remainder: both operands untagged, `idiv`. -/
theorem idiv_run {ext : Ext} {code : List Byte} {c : Mach} {p : Nat} {x y : PN} {rest : List Byte} {Q : Mach → Prop} (hx : c.regs 0 = x) (hy : c.regs 2 = y)
    (ix : isInt x = true) (iy : isInt y = true) (bx : -(2^30) ≤ pnInt x ∧ pnInt x < 2^30) (bY : -(2^30) ≤ pnInt y ∧ pnInt y < 2^30)
    (h0 : pnInt y ≠ 0)
    (h : At code p ([0xD1#8, 0xF8#8, 0xD1#8, 0xFA#8, 0x89#8, 0xD1#8, 0x89#8, 0xC2#8, 0xC1#8, 0xFA#8, 0x1F#8, 0xF7#8, 0xF9#8] ++ rest))
    (k : ∀ c', c'.regs 0 = (BitVec.ofInt 32 ((pnInt x).tdiv (pnInt y))).setWidth 64 →
      c'.regs 2 = (BitVec.ofInt 32 ((pnInt x).tmod (pnInt y))).setWidth 64 → saved c' = saved c → c'.mem = c.mem →
      At code (p + 13) rest → Reach ext code (at_ c' (p + 13)) Q) : Reach ext code (at_ c p) Q := by
  have h : At code p ([0xD1#8, 0xF8#8] ++ ([0xD1#8, 0xFA#8] ++ ([0x89#8, 0xD1#8] ++ ([0x89#8, 0xC2#8] ++
      ([0xC1#8, 0xFA#8, 0x1F#8] ++ ([0xF7#8, 0xF9#8] ++ rest)))))) := h
  let c1 := c.sar32 0 1
  let c2 := c1.sar32 2 1
  let c3 := c2.set32 1 (c2.lo 2)
  let c4 := c3.set32 2 (c3.lo 0)
  let c5 := c4.sar32 2 31
  have u0 := untag32 ix bx
  have u1 := untag32 iy bY
  have w : ∀ v : BitVec 32, (v.setWidth 64).setWidth 32 = v := fun v => by simp
  have e0 : c5.lo 0 = (x.setWidth 32).sshiftRight 1 := by
    show (((c.regs 0).setWidth 32).sshiftRight 1 |>.setWidth 64 |>.setWidth 32) = _
    rw [hx, w]
  have e1 : c5.lo 1 = (y.setWidth 32).sshiftRight 1 := by
    show ((((c.regs 2).setWidth 32).sshiftRight 1 |>.setWidth 64 |>.setWidth 32) |>.setWidth 64 |>.setWidth 32) = _
    rw [hy, w, w]
  have e2 : c5.lo 2 = ((x.setWidth 32).sshiftRight 1).sshiftRight 31 := by
    show ((((((c.regs 0).setWidth 32).sshiftRight 1 |>.setWidth 64 |>.setWidth 32) |>.setWidth 64 |>.setWidth 32).sshiftRight 31)
      |>.setWidth 64 |>.setWidth 32) = _
    rw [hx, w, w, w]
  have hd : c5.idiv32 1 = some (({ c5 with of := none }.set32 0 (BitVec.ofInt 32 ((pnInt x).tdiv (pnInt y)))).set32 2
      (BitVec.ofInt 32 ((pnInt x).tmod (pnInt y)))) := by
    unfold Mach.idiv32
    dsimp only
    rw [e0, e1, e2, toInt_ext32, u0, u1, if_neg h0, if_pos]
    have := tdiv_bound (j := pnInt y) bx
    unfold fits
    rw [decide_eq_true_eq]
    omega
  refine R_bytes c1 _ (.sar32 0 1) (fun _ => rfl) h.left rfl ?_
  refine R_bytes c2 _ (.sar32 2 1) (fun _ => rfl) h.right.left rfl ?_
  refine R_bytes c3 _ (.mov32 1 2) (fun _ => rfl) h.right.right.left rfl ?_
  refine R_bytes c4 _ (.mov32 2 0) (fun _ => rfl) h.right.right.right.left rfl ?_
  refine R_bytes c5 _ (.sar32 2 31) (fun _ => rfl) h.right.right.right.right.left rfl ?_
  refine R_bytes (({ c5 with of := none }.set32 0 (BitVec.ofInt 32 ((pnInt x).tdiv (pnInt y)))).set32 2
      (BitVec.ofInt 32 ((pnInt x).tmod (pnInt y)))) _ (.idiv32 1) (fun _ => rfl) h.right.right.right.right.right.left ?_ ?_
  · show (match (at_ c5 _).idiv32 1 with
      | some m' => Out.run { m' with rip := _ }
      | none => .fault) = _
    rw [show (at_ c5 (p + [0xD1#8, 0xF8#8].length + [0xD1#8, 0xFA#8].length + [0x89#8, 0xD1#8].length + [0x89#8, 0xC2#8].length +
      [0xC1#8, 0xFA#8, 0x1F#8].length)).idiv32 1 = (c5.idiv32 1).map fun m => at_ m (p + [0xD1#8, 0xF8#8].length + [0xD1#8, 0xFA#8].length + [0x89#8, 0xD1#8].length + [0x89#8, 0xC2#8].length +
      [0xC1#8, 0xFA#8, 0x1F#8].length) from ?_, hd]
    · rfl
    · unfold Mach.idiv32
      dsimp only
      show (if (c5.lo 1).toInt = 0 then _ else if fits 32 ((c5.lo 2 ++ c5.lo 0).toInt.tdiv (c5.lo 1).toInt) then _ else _) = _
      split
      · rfl
      · split <;> rfl
  · refine R_cast (p + 13) (by len) (k _ rfl rfl rfl rfl (h.right.right.right.right.right.right.cast (by len)))

theorem div_ops {ext : Ext} {code : List Byte} (x y : PN) (ix : isInt x = true) (iy : isInt y = true) (bx : -(2^30) ≤ pnInt x ∧ pnInt x < 2^30)
    (bY : -(2^30) ≤ pnInt y ∧ pnInt y < 2^30) (h0 : pnInt y ≠ 0) :
    MathOps ext code true divOps x y (tagged32 ((pnInt x).tdiv (pnInt y))) := by
  refine ⟨fun c p hx hy _ h => idiv_run (rest := [0x8D#8, 0x44#8, 0x00#8, 0x01#8]) hx (hy rfl) ix iy bx bY h0 h fun c' r0 _ hs hm h => ?_⟩
  refine R_bytes (c'.set32 0 ((c'.ea (.sib 0 0 1 1)).setWidth 32)) _ (.lea32 0 (.sib 0 0 1 1)) (fun _ => rfl) h rfl (.done ⟨?_, ?_, ?_, ?_⟩)
  · simp only [at_, divOps]; len
  · exact tag32 (tdiv_bound bx) _ r0
  · exact hs
  · exact hm

theorem rem_ops {ext : Ext} {code : List Byte} (x y : PN) (ix : isInt x = true) (iy : isInt y = true) (bx : -(2^30) ≤ pnInt x ∧ pnInt x < 2^30)
    (bY : -(2^30) ≤ pnInt y ∧ pnInt y < 2^30) (h0 : pnInt y ≠ 0) :
    MathOps ext code true remOps x y (tagged32 ((pnInt x).tmod (pnInt y))) := by
  refine ⟨fun c p hx hy _ h => idiv_run (rest := [0x8D#8, 0x44#8, 0x12#8, 0x01#8]) hx (hy rfl) ix iy bx bY h0 h fun c' _ r0 hs hm h => ?_⟩
  refine R_bytes (c'.set32 0 ((c'.ea (.sib 2 2 1 1)).setWidth 32)) _ (.lea32 0 (.sib 2 2 1 1)) (fun _ => rfl) h rfl (.done ⟨?_, ?_, ?_, ?_⟩)
  · simp only [at_, remOps]; len
  · exact tag32 (tmod_bound bx) _ r0
  · exact hs
  · exact hm

end Potion.Jit
