import Verif.Proof.JitUnit
import Verif.Spec.Jit
/-!
What the code of each bytecode instruction does.
-/
namespace Potion.Jit
open Potion Potion.X86

variable {ext : Ext} {code : List Byte}

theorem saved_rsp {m m' : Mach} (h : saved m = saved m') : m.regs 4 = m'.regs 4 := congrArg Prod.fst h
theorem saved_rbp {m m' : Mach} (h : saved m = saved m') : m.regs 5 = m'.regs 5 := congrArg (fun x => x.2.1) h

/-- The state `m` with slot `a` set to `v`, at offset `p`; nothing else that matters has changed. -/
def Wrote (H : PN → Prop) (m : Mach) (p : Nat) (a : Int) (v : PN) (m' : Mach) : Prop :=
  m'.rip = p ∧ saved m' = saved m ∧ ∀ A, Live H m A → m'.mem A = if A = slot (m.regs 5) a then v else m.mem A

/-- Slot numbers the generator can address. -/
def InFrame (x : Int) : Prop := 0 ≤ x ∧ x < 2^20

theorem aligned_slot {bp : PN} (h : aligned bp = true) (x : Int) : aligned (slot bp x) = true := by
  unfold aligned slot disp at *
  simp only [beq_iff_eq] at *
  rw [BitVec.toNat_add, BitVec.toNat_ofInt]
  omega

variable {m : Mach} {p : Nat} {H : PN → Prop}

theorem move_run (hal : aligned (m.regs 5) = true) {a b : Int} (ha : InFrame a) (hb : InFrame b)
    (h : At code p (movRbp 0x8B#8 b ++ movRbp 0x89#8 a)) :
    Reach ext code (at_ m p) (Wrote H m (p + (movRbp 0x8B#8 b ++ movRbp 0x89#8 a).length) a (m.mem (slot (m.regs 5) b))) := by
  have h1 := h.left
  have h2 := h.right
  rw [movRbp_length] at h2
  refine R_ld 0 (by decide) b hb h1 (aligned_slot hal b) (R_st 0 (by decide) a ha h2 (aligned_slot hal a) (.done ?_))
  refine ⟨?_, rfl, fun A _ => rfl⟩
  simp only [at_, List.length_append, movRbp_length, Nat.add_assoc]

theorem movq_run (hal : aligned (m.regs 5) = true) {a : Int} (ha : InFrame a) (v : PN)
    (h : At code p (movq a v)) : Reach ext code (at_ m p) (Wrote H m (p + (movq a v).length) a v) := by
  unfold movq at h
  rw [List.append_assoc] at h
  have h1 := h.left
  have h2 := h.right
  have e : ([0x48#8, 0xB8#8] ++ asmN v).length = 10 := by simp [asmN_length]
  rw [e] at h2
  refine R_movi v h1 (R_st 0 (by decide) a ha h2 (aligned_slot hal a) (.done ?_))
  refine ⟨?_, rfl, fun A _ => rfl⟩
  rw [movq_length]; simp only [at_, Nat.add_assoc]

theorem setlocal_run (hal : aligned (m.regs 5) = true) {a b : Int} (ha : InFrame a) (hb : InFrame b)
    (h : At code p (movRbpDx 0x8B#8 b ++ movRbpDx 0x89#8 a)) :
    Reach ext code (at_ m p)
      (Wrote H m (p + (movRbpDx 0x8B#8 b ++ movRbpDx 0x89#8 a).length) a (m.mem (slot (m.regs 5) b))) := by
  have h1 := h.left
  have h2 := h.right
  rw [movRbpDx_length] at h2
  refine R_ld 2 (by decide) b hb h1 (aligned_slot hal b) (R_st 2 (by decide) a ha h2 (aligned_slot hal a) (.done ?_))
  refine ⟨?_, rfl, fun A _ => rfl⟩
  simp only [at_, List.length_append, movRbpDx_length, Nat.add_assoc]

theorem Wrote.of {m c : Mach} {p q a v m'} (h : Wrote H c p a v m') (e : p = q) (hs : saved c = saved m)
    (hm : c.mem = m.mem) : Wrote H m q a v m' := by
  obtain ⟨e1, e2, e4⟩ := h
  refine ⟨e1.trans e, e2.trans hs, ?_⟩
  unfold Live at *
  rw [saved_rsp hs, saved_rbp hs, hm] at e4
  exact e4

/-- The same, from a state that agrees with `m` on the frame. -/
theorem movq_end {c : Mach} (q : Nat) (hal : aligned (m.regs 5) = true) {a : Int} (ha : InFrame a) (v : PN)
    (h : At code p (movq a v)) (hq : q = p + 10 + ldLen a) (hs : saved c = saved m)
    (hm : c.mem = m.mem) : Reach ext code (at_ c p) (Wrote H m q a v) :=
  (movq_run (m := c) (by rw [saved_rbp hs]; exact hal) ha v h).mono fun _ h => h.of (by rw [hq]; len) hs hm

/-- Store `%rax`. -/
theorem st_end {c : Mach} (q : Nat) (hal : aligned (m.regs 5) = true) {a : Int} (ha : InFrame a)
    (h : At code p (movRbp 0x89#8 a)) (hq : q = p + ldLen a) (hs : saved c = saved m)
    (hm : ∀ A, Live H m A → c.mem A = m.mem A) :
    Reach ext code (at_ c p) (Wrote H m q a (c.regs 0)) := by
  refine R_st 0 (by decide) a ha h (aligned_slot (by rw [saved_rbp hs]; exact hal) a) (.done ⟨hq.symm, hs, fun A hA => ?_⟩)
  show (if A = slot (c.regs 5) a then c.regs 0 else c.mem A) = _
  rw [saved_rbp hs, hm A hA]

/-- TEST, NOT. -/
theorem test_run (hal : aligned (m.regs 5) = true) {a : Int} (ha : InFrame a) (yes no : PN)
    (h : At code p (testAsm a yes no)) :
    Reach ext code (at_ m p)
      (Wrote H m (p + (testAsm a yes no).length) a (if pnTest (m.mem (slot (m.regs 5) a)) then yes else no)) := by
  have hl : (testAsm a yes no).length = ldLen a + 6 + 5 + (10 + ldLen a + 2) + (10 + ldLen a) := by
    unfold testAsm; len
  rw [hl]
  have hL := ldLen_cases a
  unfold testAsm at h
  simp only [List.append_assoc] at h
  have h0 := h.left
  have h1 := h.right
  have c1 := (show At code _ ([0x48#8, 0x83#8, 0xF8#8, 0x02#8] ++ _) from h1).left.cast (q := p + ldLen a) (by len)
  have h1' := (show At code _ ([0x48#8, 0x83#8, 0xF8#8, 0x02#8] ++ _) from h1).right
  have j1 := (show At code _ ([_, _] ++ _) from h1').left.cast (q := p + ldLen a + 4) (by len)
  have h2 := (show At code _ ([_, _] ++ _) from h1').right
  have c2 := (show At code _ ([0x48#8, 0x85#8, 0xC0#8] ++ _) from h2).left.cast (q := p + ldLen a + 6) (by len)
  have h2' := (show At code _ ([0x48#8, 0x85#8, 0xC0#8] ++ _) from h2).right
  have j2 := (show At code _ ([_, _] ++ _) from h2').left.cast (q := p + ldLen a + 9) (by len)
  have h3 := (show At code _ ([_, _] ++ _) from h2').right
  have mt := h3.left.cast (q := p + ldLen a + 11) (by len)
  have h4 := h3.right
  have j3 := h4.left.cast (q := p + ldLen a + 21 + ldLen a) (by len)
  have mf := h4.right.cast (q := p + ldLen a + 23 + ldLen a) (by len)
  generalize hw : m.mem (slot (m.regs 5) a) = w
  refine R_ld 0 (by decide) a ha h0 (aligned_slot hal a) ?_
  rw [hw]
  refine R_bytes ((m.set 0 w).alu .cmp 0 w 2#64) _ (.alui .cmp 0 2) (fun _ => rfl) c1 rfl ?_
  by_cases hf : w = PN_FALSE
  · subst hf
    refine R_yes (p + ldLen a + 23 + ldLen a) _ _ _ .e (fun _ => rfl) j1 (over_toInt _ (by len)) (by len) rfl ?_
    exact movq_end _ hal ha no mf (by omega) rfl rfl
  · refine R_no _ _ .e (fun _ => rfl) j1 ?_ ?_
    · show some (w - 2#64 == 0#64) = some false
      rw [beq_false_of_ne]
      intro e
      apply hf
      rw [BitVec.sub_eq_iff_eq_add, BitVec.zero_add] at e
      exact e
    refine R_bytes (((m.set 0 w).alu .cmp 0 w 2#64).alu .test 0 w w) _ (.alu .test 0 0) (fun _ => rfl) c2 rfl ?_
    by_cases hz : w = PN_NIL
    · subst hz
      refine R_yes (p + ldLen a + 23 + ldLen a) _ _ _ .e (fun _ => rfl) j2 (over_toInt _ (by len)) (by len) rfl ?_
      exact movq_end _ hal ha no mf (by omega) rfl rfl
    · refine R_no _ _ .e (fun _ => rfl) j2 ?_ ?_
      · show some (w &&& w == 0#64) = some false
        rw [BitVec.and_self, beq_false_of_ne (show w ≠ 0#64 from hz)]
      have : pnTest w = true := by simp [pnTest, hf, hz]
      rw [this, if_pos rfl]
      refine R_cast (p + ldLen a + 11) (by len) (Reach.bind (movq_end (m := m) (H := H) _ hal ha yes mt rfl (by rfl) (by rfl)) fun m' h => ?_)
      obtain ⟨e1, e2, e4⟩ := h
      have : m' = at_ m' (p + ldLen a + 11 + 10 + ldLen a) := by rw [← e1]; rfl
      rw [this]
      refine R_cast (p + ldLen a + 21 + ldLen a) (by len) (R_jmp8 _ _ _ j3 (over_toInt _ (by len)) rfl (.done ?_))
      exact ⟨by simp only [at_]; len, e2, e4⟩

/-- The instructions of `X86_MATH` between the tests and the store when both operands are integers. -/
structure MathOps (ext : Ext) (code : List Byte) (two : Bool) (ops : List Byte) (x y r : PN) : Prop where
  run : ∀ (c : Mach) (p : Nat), c.regs 0 = x → (two = true → c.regs 2 = y) → c.of = some false → At code p ops →
    Reach ext code (at_ c p) fun m' => m'.rip = p + ops.length ∧ m'.regs 0 = r ∧ saved m' = saved c ∧
      m'.mem = c.mem

theorem eq_at (m : Mach) : m = at_ m m.rip := rfl

theorem math2_run (hal : aligned (m.regs 5) = true) {a b s : Int} (ha : InFrame a) (hb : InFrame b) {fn : PN}
    {ops : List Byte} {r : PN} (hops : ops.length < 64)
    (hx : isInt (m.mem (slot (m.regs 5) a)) = true) (hy : isInt (m.mem (slot (m.regs 5) b)) = true)
    (ho : MathOps ext code true ops (m.mem (slot (m.regs 5) a)) (m.mem (slot (m.regs 5) b)) r)
    (h : At code p (math true fn ops s a b)) :
    Reach ext code (at_ m p) (Wrote H m (p + (math true fn ops s a b).length) a r) := by
  have hL := ldLen_cases a
  have hLb := ldLen_cases b
  have hLs := ldLen_cases (s - 3)
  have hl : (math true fn ops s a b).length =
      ldLen a + ldLen b + 5 + 5 + (ops.length + 2) + (ldLen (s-3) + ldLen a + ldLen b + 12) + ldLen a := by
    unfold math; simp only [if_true]; len
  rw [hl]
  unfold math at h
  simp only [if_true, List.append_assoc] at h
  have h0 := h.left
  have h1 := h.right
  have b0 := h1.left.cast (q := p + ldLen a) (by len)
  have h2 := h1.right
  have t1 := (show At code _ ([0xF6#8, 0xC0#8, 0x01#8] ++ _) from h2).left.cast (q := p + ldLen a + ldLen b) (by len)
  have h2' := (show At code _ ([0xF6#8, 0xC0#8, 0x01#8] ++ _) from h2).right
  have j1 := (show At code _ ([_, _] ++ _) from h2').left.cast (q := p + ldLen a + ldLen b + 3) (by len)
  have h3 := (show At code _ ([_, _] ++ _) from h2').right
  have t2 := (show At code _ ([0xF6#8, 0xC2#8, 0x01#8] ++ _) from h3).left.cast (q := p + ldLen a + ldLen b + 5) (by len)
  have h3' := (show At code _ ([0xF6#8, 0xC2#8, 0x01#8] ++ _) from h3).right
  have j2 := (show At code _ ([_, _] ++ _) from h3').left.cast (q := p + ldLen a + ldLen b + 8) (by len)
  have h4 := (show At code _ ([_, _] ++ _) from h3').right
  have o := h4.left.cast (q := p + ldLen a + ldLen b + 10) (by len)
  have h5 := h4.right
  have je := h5.left.cast (q := p + ldLen a + ldLen b + 10 + ops.length) (by len)
  have st := h5.right.right.right.right.right.cast
    (q := p + ldLen a + ldLen b + 12 + ops.length + (ldLen (s-3) + ldLen a + ldLen b + 12)) (by len)
  clear h h1 h2 h2' h3 h3' h4 h5
  generalize hwx : m.mem (slot (m.regs 5) a) = x at *
  generalize hwy : m.mem (slot (m.regs 5) b) = y at *
  refine R_ld 0 (by decide) a ha h0 (aligned_slot hal a) ?_
  rw [hwx]
  refine R_ld 2 (by decide) b hb b0 (aligned_slot hal b) ?_
  rw [show (m.set 0 x).mem (slot ((m.set 0 x).regs 5) b) = y from hwy]
  refine R_bytes (((m.set 0 x).set 2 y).flags (x.setWidth 8 &&& 0x01#8) (some false)) _ (.testb 0 1#8) (fun _ => rfl) t1 rfl ?_
  refine R_no _ _ .e (fun _ => rfl) j1 ?_ ?_
  · show some (_ == _) = some false
    rw [test1, hx]; rfl
  refine R_bytes ((((m.set 0 x).set 2 y).flags (x.setWidth 8 &&& 0x01#8) (some false)).flags (y.setWidth 8 &&& 0x01#8) (some false))
    _ (.testb 2 1#8) (fun _ => rfl) t2 rfl ?_
  refine R_no _ _ .e (fun _ => rfl) j2 ?_ ?_
  · show some (_ == _) = some false
    rw [test1, hy]; rfl
  refine (ho.run _ _ rfl (fun _ => rfl) rfl o).bind ?_
  intro c1 ⟨e1, e2, e3, e5⟩
  rw [eq_at c1, e1]
  refine R_jmp8 (p + ldLen a + ldLen b + 12 + ops.length + (ldLen (s-3) + ldLen a + ldLen b + 12)) _ _ je
    (over_toInt _ (by len)) (by len) ?_
  rw [← e2]
  exact st_end (m := m) _ hal ha st (by omega) e3 (fun A _ => by rw [e5]; rfl)

theorem add_ops (x y : PN) :
    MathOps ext code true [0x48#8, 0x8D#8, 0x44#8, 0x10#8, 0xFF#8, 0x70#8, 2#8] x y (jitAdd x y) := by
  refine ⟨fun c p hx hy hof h => ?_⟩
  have l := (show At code p ([0x48#8, 0x8D#8, 0x44#8, 0x10#8, 0xFF#8] ++ [0x70#8, 2#8]) from h).left
  have j := (show At code p ([0x48#8, 0x8D#8, 0x44#8, 0x10#8, 0xFF#8] ++ [0x70#8, 2#8]) from h).right
  refine R_bytes (c.set 0 (c.regs 0 + c.regs 2 * 1#64 + BitVec.ofInt 64 (-1))) _ (.lea 0 (.sib 0 2 1 (-1))) (fun _ => rfl) l rfl ?_
  refine R_no _ _ .o (fun _ => rfl) j hof (.done ⟨rfl, ?_, rfl, rfl⟩)
  show c.regs 0 + c.regs 2 * 1#64 + BitVec.ofInt 64 (-1) = _
  rw [hx, hy rfl, BitVec.mul_one, jitAdd, BitVec.sub_eq_add_neg]
  have : BitVec.ofInt 64 (-1) = -(1#64) := by decide
  rw [this]

theorem fits_iff (i : Int) : fits 64 i = decide (FitsLong i) := by
  unfold fits FitsLong
  apply decide_eq_decide.mpr
  simp

theorem sub_ops (x y : PN) (hf : FitsLong (x.toInt - y.toInt)) :
    MathOps ext code true [0x48#8, 0x29#8, 0xD0#8, 0x70#8, 5#8, 0x48#8, 0xFF#8, 0xC0#8] x y (x - y + 1#64) := by
  refine ⟨fun c p hx hy hof h => ?_⟩
  have hy := hy rfl
  have s := (show At code p ([0x48#8, 0x29#8, 0xD0#8] ++ ([0x70#8, 5#8] ++ [0x48#8, 0xFF#8, 0xC0#8])) from h).left
  have h1 := (show At code p ([0x48#8, 0x29#8, 0xD0#8] ++ ([0x70#8, 5#8] ++ [0x48#8, 0xFF#8, 0xC0#8])) from h).right
  refine R_bytes (c.alu .sub 0 (c.regs 0) (c.regs 2)) _ (.alu .sub 0 2) (fun _ => rfl) s rfl ?_
  rw [hx, hy]
  refine R_no _ _ .o (fun _ => rfl) h1.left ?_ ?_
  · show some (!fits 64 (x.toInt - y.toInt)) = some false
    rw [fits_iff, decide_eq_true hf]; rfl
  exact R_bytes ((c.alu .sub 0 x y).un .inc 0 (x - y)) _ (.un .inc 0) (fun _ => rfl) h1.right rfl
    (.done ⟨rfl, rfl, rfl, rfl⟩)

theorem mult_ops (x y : PN) (hf : FitsLong ((x - 1#64).toInt * (y.sshiftRight 1).toInt)) :
    MathOps ext code true [0x48#8, 0xD1#8, 0xFA#8, 0x48#8, 0xFF#8, 0xC8#8, 0x48#8, 0x0F#8, 0xAF#8, 0xC2#8,
      0x70#8, 5#8, 0x48#8, 0xFF#8, 0xC0#8] x y ((x - 1#64) * y.sshiftRight 1 + 1#64) := by
  refine ⟨fun c p hx hy hof h => ?_⟩
  have hy := hy rfl
  have h : At code p ([0x48#8, 0xD1#8, 0xFA#8] ++ ([0x48#8, 0xFF#8, 0xC8#8] ++ ([0x48#8, 0x0F#8, 0xAF#8, 0xC2#8] ++
      ([0x70#8, 5#8] ++ [0x48#8, 0xFF#8, 0xC0#8])))) := h
  refine R_bytes (c.un .sar 2 (c.regs 2)) _ (.un .sar 2) (fun _ => rfl) h.left rfl ?_
  rw [hy]
  refine R_bytes ((c.un .sar 2 y).un .dec 0 (c.regs 0)) _ (.un .dec 0) (fun _ => rfl) h.right.left rfl ?_
  rw [hx]
  refine R_bytes (((c.un .sar 2 y).un .dec 0 x).alu .imul 0 (x - 1#64) (y.sshiftRight 1)) _ (.alu .imul 0 2) (fun _ => rfl)
    h.right.right.left rfl ?_
  refine R_no _ _ .o (fun _ => rfl) h.right.right.right.left ?_ ?_
  · show some (!fits 64 ((x - 1#64).toInt * (y.sshiftRight 1).toInt)) = some false
    rw [fits_iff, decide_eq_true hf]; rfl
  exact R_bytes ((((c.un .sar 2 y).un .dec 0 x).alu .imul 0 (x - 1#64) (y.sshiftRight 1)).un .inc 0
    ((x - 1#64) * y.sshiftRight 1)) _ (.un .inc 0) (fun _ => rfl) h.right.right.right.right rfl
    (.done ⟨rfl, rfl, rfl, rfl⟩)

theorem bitn_run (hal : aligned (m.regs 5) = true) {a b s : Int} (ha : InFrame a) {fn : PN}
    (hx : isInt (m.mem (slot (m.regs 5) a)) = true)
    (h : At code p (math false fn [0x48#8, 0xF7#8, 0xD0#8, 0x48#8, 0xFF#8, 0xC0#8] s a b)) :
    Reach ext code (at_ m p) (Wrote H m (p + (math false fn [0x48#8, 0xF7#8, 0xD0#8, 0x48#8, 0xFF#8, 0xC0#8] s a b).length) a
      (jitBitn (m.mem (slot (m.regs 5) a)))) := by
  have hL := ldLen_cases a
  have hLb := ldLen_cases b
  have hLs := ldLen_cases (s - 3)
  have hl : (math false fn [0x48#8, 0xF7#8, 0xD0#8, 0x48#8, 0xFF#8, 0xC0#8] s a b).length =
      ldLen a + 5 + 8 + (ldLen (s-3) + ldLen a + ldLen b + 12) + ldLen a := by
    unfold math; simp only [Bool.false_eq_true, if_false]; len
  rw [hl]
  unfold math at h
  simp only [Bool.false_eq_true, if_false, List.append_assoc, List.nil_append] at h
  have h0 := h.left
  have h2 := h.right
  have t1 := (show At code _ ([0xF6#8, 0xC0#8, 0x01#8] ++ _) from h2).left.cast (q := p + ldLen a) (by len)
  have h2' := (show At code _ ([0xF6#8, 0xC0#8, 0x01#8] ++ _) from h2).right
  have j1 := (show At code _ ([_, _] ++ _) from h2').left.cast (q := p + ldLen a + 3) (by len)
  have h4 := (show At code _ ([_, _] ++ _) from h2').right
  have o1 := (show At code _ ([0x48#8, 0xF7#8, 0xD0#8] ++ _) from h4).left.cast (q := p + ldLen a + 5) (by len)
  have h4' := (show At code _ ([0x48#8, 0xF7#8, 0xD0#8] ++ _) from h4).right
  have o2 := (show At code _ ([0x48#8, 0xFF#8, 0xC0#8] ++ _) from h4').left.cast (q := p + ldLen a + 8) (by len)
  have h5 := (show At code _ ([0x48#8, 0xFF#8, 0xC0#8] ++ _) from h4').right
  have je := h5.left.cast (q := p + ldLen a + 11) (by len)
  have st := h5.right.right.right.right.right.cast
    (q := p + ldLen a + 13 + (ldLen (s-3) + ldLen a + ldLen b + 12)) (by len)
  clear h h2 h2' h4 h4' h5
  generalize hwx : m.mem (slot (m.regs 5) a) = x at *
  refine R_ld 0 (by decide) a ha h0 (aligned_slot hal a) ?_
  rw [hwx]
  refine R_bytes ((m.set 0 x).flags (x.setWidth 8 &&& 0x01#8) (some false)) _ (.testb 0 1#8) (fun _ => rfl) t1 rfl ?_
  refine R_no _ _ .e (fun _ => rfl) j1 ?_ ?_
  · show some (_ == _) = some false
    rw [test1, hx]; rfl
  refine R_bytes ((((m.set 0 x).flags (x.setWidth 8 &&& 0x01#8) (some false))).un .not 0 x) _ (.un .not 0) (fun _ => rfl) o1 rfl ?_
  refine R_bytes (((((m.set 0 x).flags (x.setWidth 8 &&& 0x01#8) (some false))).un .not 0 x).un .inc 0 (~~~x)) _ (.un .inc 0)
    (fun _ => rfl) o2 rfl ?_
  refine R_jmp8 (p + ldLen a + 13 + (ldLen (s-3) + ldLen a + ldLen b + 12)) _ _ je (over_toInt _ (by len)) (by len) ?_
  exact st_end (m := m) _ hal ha st (by omega) rfl (fun A _ => rfl)

/-- Bytes of `X86_NUMCMP` that are not used on two integers. -/
def dblBytes (xop : Byte) (a : Int) : List Byte :=
  [0xf2#8, 0x0f#8, 0x10#8, 0x42#8, 8#8, 0x66#8, 0x0f#8, 0xef#8, 0xc9#8, 0x48#8, 0xd1#8, 0xf8#8,
    0xF2#8, 0x48#8, 0x0f#8, 0x2a#8, 0xc8#8, 0xEB#8, 29#8,
    0xf2#8, 0x0f#8, 0x10#8, 0x48#8, 8#8, 0xF6#8, 0xC2#8, 0x01#8, 0x74#8, 14#8,
    0x66#8, 0x0f#8, 0xef#8, 0xc0#8, 0x48#8, 0xd1#8, 0xfa#8, 0xF2#8, 0x48#8, 0x0f#8, 0x2a#8, 0xc2#8, 0xEB#8, 5#8,
    0xf2#8, 0x0f#8, 0x10#8, 0x42#8, 8#8, 0x66#8, 0x0F#8, 0x2e#8, 0xc1#8, xop, BitVec.ofNat 8 (10 + ldLen a + 2)]

theorem numcmp_shape (iop xop : Byte) (a b : Int) :
    numcmp iop xop a b = movRbpDx 0x8B#8 a ++ (movRbp 0x8B#8 b ++ ([0xA8#8, 0x01#8] ++ ([0x74#8, 31#8] ++ ([0xF6#8, 0xC2#8, 0x01#8] ++
      ([0x74#8, 7#8] ++ ([0x48#8, 0x39#8, 0xC2#8] ++ ([iop, BitVec.ofNat 8 (58 + (10 + ldLen a))] ++ ([0xEB#8, 54#8] ++ (dblBytes xop a ++
      (movq a PN_FALSE ++ ([0xEB#8, if a > 31 then 17#8 else 14#8] ++ movq a PN_TRUE))))))))))) := by
  unfold numcmp dblBytes
  simp only [over, List.length_append, List.length_cons, List.length_nil, movq_length]
  simp only [List.append_assoc, List.cons_append, List.nil_append]
  have : 0 + 1 + 1 + (19 + (29 + (0 + 1 + 1 + 1 + 1 + (0+1+1)))) + (10 + ldLen a) + (0+1+1) = 58 + (10 + ldLen a) := by omega
  rw [← this]

/-- The sign of a 64-bit difference, corrected by the overflow flag, is the sign of the exact difference. -/
theorem cmp_sign (x y : PN) : ((x - y).msb != !fits 64 (x.toInt - y.toInt)) = decide (x.toInt < y.toInt) := by
  have hx := BitVec.toInt_lt (x := x)
  have hx' := BitVec.le_toInt (x := x)
  have hy := BitVec.toInt_lt (x := y)
  have hy' := BitVec.le_toInt (x := y)
  rw [fits_iff]
  have e : (x - y).msb = decide ((x - y).toInt < 0) := BitVec.msb_eq_toInt
  rw [e, BitVec.toInt_sub]
  by_cases h : x.toInt < y.toInt
  · rw [decide_eq_true h]
    by_cases hf : FitsLong (x.toInt - y.toInt)
    · rw [decide_eq_true hf, decide_eq_true]; rfl
      unfold FitsLong at hf; simp only [Int.bmod]; omega
    · rw [decide_eq_false hf, decide_eq_false]; rfl
      unfold FitsLong at hf; simp only [Int.bmod]; omega
  · rw [decide_eq_false h]
    by_cases hf : FitsLong (x.toInt - y.toInt)
    · rw [decide_eq_true hf, decide_eq_false]; rfl
      unfold FitsLong at hf; simp only [Int.bmod]; omega
    · rw [decide_eq_false hf, decide_eq_true]; rfl
      unfold FitsLong at hf; simp only [Int.bmod]; omega

theorem cmp_zero (x y : PN) : (x - y == 0#64) = decide (x.toInt = y.toInt) := by
  by_cases h : x = y
  · subst h; simp
  · rw [beq_false_of_ne, decide_eq_false]
    · intro e; exact h (BitVec.eq_of_toInt_eq e)
    · intro e; rw [BitVec.sub_eq_iff_eq_add, BitVec.zero_add] at e; exact h e

theorem cmp_l (c : Mach) (x y : PN) : (c.alu .cmp 2 x y).cc .l = some (decide (x.toInt < y.toInt)) := by
  show some ((x - y).msb != !fits 64 (x.toInt - y.toInt)) = _
  rw [cmp_sign]
theorem cmp_ge (c : Mach) (x y : PN) : (c.alu .cmp 2 x y).cc .ge = some (decide (x.toInt ≥ y.toInt)) := by
  show some ((x - y).msb == !fits 64 (x.toInt - y.toInt)) = _
  have : ∀ a b : Bool, (a == b) = !(a != b) := by decide
  rw [this, cmp_sign, ← decide_not]; simp only [Int.not_lt, ge_iff_le]
theorem cmp_le (c : Mach) (x y : PN) : (c.alu .cmp 2 x y).cc .le = some (decide (x.toInt ≤ y.toInt)) := by
  show some ((x - y == 0#64) || (x - y).msb != !fits 64 (x.toInt - y.toInt)) = _
  rw [cmp_sign, cmp_zero, ← Bool.decide_or]
  congr 1; apply decide_eq_decide.mpr; omega
theorem cmp_g (c : Mach) (x y : PN) : (c.alu .cmp 2 x y).cc .g = some (decide (x.toInt > y.toInt)) := by
  show some (!(x - y == 0#64) && (x - y).msb == !fits 64 (x.toInt - y.toInt)) = _
  have : ∀ a b : Bool, (a == b) = !(a != b) := by decide
  rw [this, cmp_sign, cmp_zero, ← decide_not, ← decide_not, ← Bool.decide_and]
  congr 1; apply decide_eq_decide.mpr; omega

/-- LT, LTE, GT, GTE on two integers: where they end. -/
theorem numcmp_gen (hal : aligned (m.regs 5) = true) {a b : Int} (ha : InFrame a) (hb : InFrame b)
    (iop xop : Byte) (cc : Cc) (hd : ∀ d t, decode ([iop, d] ++ t) = some (.jcc cc d.toInt, 2)) (r : Bool)
    (hx : isInt (m.mem (slot (m.regs 5) a)) = true) (hy : isInt (m.mem (slot (m.regs 5) b)) = true)
    (hc : ∀ c : Mach, (c.alu .cmp 2 (m.mem (slot (m.regs 5) a)) (m.mem (slot (m.regs 5) b))).cc cc = some r)
    (h : At code p (numcmp iop xop a b)) :
    Reach ext code (at_ m p) (Wrote H m (p + (numcmp iop xop a b).length - (if r then 0 else 10 + ldLen a) +
      (if r then 0 else if a > 31 then 17 else 14)) a (pnBool r)) := by
  have hL := ldLen_cases a
  have hdb : (dblBytes xop a).length = 54 := rfl
  rw [numcmp_shape] at h ⊢
  have hl : (movRbpDx 0x8B#8 a ++ (movRbp 0x8B#8 b ++ ([0xA8#8, 0x01#8] ++ ([0x74#8, 31#8] ++ ([0xF6#8, 0xC2#8, 0x01#8] ++
      ([0x74#8, 7#8] ++ ([0x48#8, 0x39#8, 0xC2#8] ++ ([iop, BitVec.ofNat 8 (58 + (10 + ldLen a))] ++ ([0xEB#8, 54#8] ++ (dblBytes xop a ++
      (movq a PN_FALSE ++ ([0xEB#8, if a > 31 then 17#8 else 14#8] ++ movq a PN_TRUE)))))))))))).length =
      ldLen a + ldLen b + 4 + 5 + 7 + 54 + (10 + ldLen a) + 2 + (10 + ldLen a) := by
    simp only [List.length_append, List.length_cons, List.length_nil, movRbp_length, movRbpDx_length, movq_length, hdb]; omega
  rw [hl]
  have h0 := h.left
  have h1 := h.right; clear h
  have b0 := h1.left.cast (q := p + ldLen a) (by len)
  have h2 := h1.right; clear h1
  have t1 := h2.left.cast (q := p + ldLen a + ldLen b) (by len)
  have h3 := h2.right; clear h2
  have j1 := h3.left.cast (q := p + ldLen a + ldLen b + 2) (by len)
  have h4 := h3.right; clear h3
  have t2 := h4.left.cast (q := p + ldLen a + ldLen b + 4) (by len)
  have h5 := h4.right; clear h4
  have j2 := h5.left.cast (q := p + ldLen a + ldLen b + 7) (by len)
  have h6 := h5.right; clear h5
  have c1 := h6.left.cast (q := p + ldLen a + ldLen b + 9) (by len)
  have h7 := h6.right; clear h6
  have j3 := h7.left.cast (q := p + ldLen a + ldLen b + 12) (by len)
  have h8 := h7.right; clear h7
  have j4 := h8.left.cast (q := p + ldLen a + ldLen b + 14) (by len)
  have h9 := h8.right.right; clear h8
  rw [hdb] at h9
  have mf := h9.left.cast (q := p + ldLen a + ldLen b + 70) (by len)
  have h10 := h9.right; clear h9
  have j5 := h10.left.cast (q := p + ldLen a + ldLen b + 80 + ldLen a) (by len)
  have mt := h10.right.cast (q := p + ldLen a + ldLen b + 82 + ldLen a) (by len)
  clear h10
  generalize hwx : m.mem (slot (m.regs 5) a) = x at *
  generalize hwy : m.mem (slot (m.regs 5) b) = y at *
  refine R_ld 2 (by decide) a ha h0 (aligned_slot hal a) ?_
  rw [hwx]
  refine R_ld 0 (by decide) b hb b0 (aligned_slot hal b) ?_
  rw [show (m.set 2 x).mem (slot ((m.set 2 x).regs 5) b) = y from hwy]
  refine R_bytes (((m.set 2 x).set 0 y).flags (y.setWidth 8 &&& 0x01#8) (some false)) _ (.testb 0 1#8) (fun _ => rfl) t1 rfl ?_
  refine R_no _ _ .e (fun _ => rfl) j1 ?_ ?_
  · show some (_ == _) = some false
    rw [test1, hy]; rfl
  refine R_bytes ((((m.set 2 x).set 0 y).flags (y.setWidth 8 &&& 0x01#8) (some false)).flags (x.setWidth 8 &&& 0x01#8) (some false))
    _ (.testb 2 1#8) (fun _ => rfl) t2 rfl ?_
  refine R_no _ _ .e (fun _ => rfl) j2 ?_ ?_
  · show some (_ == _) = some false
    rw [test1, hx]; rfl
  generalize hm1 : ((((m.set 2 x).set 0 y).flags (y.setWidth 8 &&& 0x01#8) (some false)).flags (x.setWidth 8 &&& 0x01#8) (some false)) = m1
  have f0 : m1.regs 0 = y := by rw [← hm1]; rfl
  have f2 : m1.regs 2 = x := by rw [← hm1]; rfl
  have fs : saved m1 = saved m := by rw [← hm1]; rfl
  have fm : m1.mem = m.mem := by rw [← hm1]; rfl
  refine R_bytes (m1.alu .cmp 2 x y) _ (.alu .cmp 2 0) (fun _ => rfl) c1 ?_ ?_
  · rw [← f0, ← f2]; rfl
  cases r with
  | true =>
    refine R_yes (p + ldLen a + ldLen b + 82 + ldLen a) (58 + (10 + ldLen a)) _ _ cc (hd _) j3 (toInt_small _ (by omega)) (by len) (hc _) ?_
    exact movq_end _ hal ha PN_TRUE mt (by simp only [if_true]; omega) fs fm
  | false =>
    refine R_no _ _ cc (hd _) j3 (hc _) ?_
    refine R_jmp8 (p + ldLen a + ldLen b + 70) 54 _ j4 rfl (by len) ?_
    refine Reach.bind (movq_end (m := m) (H := H) _ hal ha PN_FALSE mf (by rfl) fs fm) fun m' h => ?_
    obtain ⟨e1, e2, e4⟩ := h
    rw [eq_at m', e1]
    refine R_cast (p + ldLen a + ldLen b + 80 + ldLen a) (by omega) (R_jmp8 _ (if a > 31 then 17 else 14) _ j5 ?_ rfl (.done ?_))
    · split <;> rfl
    · exact ⟨by simp only [at_, Bool.false_eq_true, if_false]; omega, e2, e4⟩

/-- LT, LTE, GT, GTE on two integers, when the result register is not one of 16 to 31. -/
theorem numcmp_run (hal : aligned (m.regs 5) = true) {a b : Int} (ha : InFrame a) (hb : InFrame b) (h31 : a ≤ 15 ∨ 31 < a)
    (iop xop : Byte) (cc : Cc) (hd : ∀ d t, decode ([iop, d] ++ t) = some (.jcc cc d.toInt, 2)) (r : Bool)
    (hx : isInt (m.mem (slot (m.regs 5) a)) = true) (hy : isInt (m.mem (slot (m.regs 5) b)) = true)
    (hc : ∀ c : Mach, (c.alu .cmp 2 (m.mem (slot (m.regs 5) a)) (m.mem (slot (m.regs 5) b))).cc cc = some r)
    (h : At code p (numcmp iop xop a b)) :
    Reach ext code (at_ m p) (Wrote H m (p + (numcmp iop xop a b).length) a (pnBool r)) := by
  refine (numcmp_gen hal ha hb iop xop cc hd r hx hy hc h).mono fun m' hm => ⟨hm.1.trans ?_, hm.2⟩
  have hl : 10 + ldLen a ≤ (numcmp iop xop a b).length := by
    rw [numcmp_shape]; len
  cases r with
  | true => simp
  | false =>
    simp only [Bool.false_eq_true, if_false]
    have : ldLen a = if a > 31 then 7 else 4 := by
      unfold ldLen
      rcases h31 with h | h
      · rw [if_neg (by omega), if_neg (by omega)]
      · rw [if_pos (by omega), if_pos (by omega)]
    rw [this] at hl ⊢
    split at hl <;> rename_i hc <;> simp only [hc, if_true, if_false] <;> omega

/-- A call of a C function. -/
theorem callC_run {c m' : Mach} {Q} (fn : PN) (h : At code p (callC fn)) (he : ext fn (at_ (c.set 0 fn) (p + 10)) = some m')
    (k : Reach ext code (at_ m' (p + 12)) Q) : Reach ext code (at_ c p) Q := by
  unfold callC at h
  have h2 := h.right
  have e : ([0x48#8, 0xB8#8] ++ asmN fn).length = 10 := by simp [asmN_length]
  rw [e] at h2
  exact R_movi fn h.left (R_call m' h2 he k)

/-- LOADK. -/
theorem loadk_run {E : Env} {cl tup word} (he : Helpers E ext H cl tup word) (hal : aligned (m.regs 5) = true)
    (h16 : (m.regs 4).toNat % 16 = 0) {a b s : Int} {w : PN}
    (ha : InFrame a) (h3 : InFrame (s - 3)) (h2 : InFrame (s - 2)) (hb : InFrame b) (hP : m.mem (slot (m.regs 5) (s - 3)) = E.P)
    (hcl : m.mem (slot (m.regs 5) (s - 2)) = cl) (al1 : aligned tup = true)
    (hw : m.mem (tup + BitVec.ofInt 64 (16 + b * 8)) = w) (hHw : H (tup + BitVec.ofInt 64 (16 + b * 8)))
    (h : At code p (argO (s - 3) 0 ++ argO (s - 2) 1 ++ callC E.fValues ++
      [0x48#8, 0x05#8] ++ asmI (16 + b * 8) ++ [0x48#8, 0x8B#8, 0x00#8] ++ movRbp 0x89#8 a)) :
    Reach ext code (at_ m p) (Wrote H m (p + (argO (s - 3) 0 ++ argO (s - 2) 1 ++ callC E.fValues ++
      [0x48#8, 0x05#8] ++ asmI (16 + b * 8) ++ [0x48#8, 0x8B#8, 0x00#8] ++ movRbp 0x89#8 a).length) a w) := by
  have hl : (argO (s - 3) 0 ++ argO (s - 2) 1 ++ callC E.fValues ++
      [0x48#8, 0x05#8] ++ asmI (16 + b * 8) ++ [0x48#8, 0x8B#8, 0x00#8] ++ movRbp 0x89#8 a).length =
      ldLen (s - 3) + ldLen (s - 2) + 12 + 6 + 3 + ldLen a := by len
  rw [hl]
  simp only [List.append_assoc] at h
  have o1 := h.left
  have h1 := h.right
  have o2 := h1.left.cast (q := p + ldLen (s-3)) (by len)
  have h2' := h1.right
  have c1 := h2'.left.cast (q := p + ldLen (s-3) + ldLen (s-2)) (by len)
  have h3' := h2'.right
  rw [← List.append_assoc] at h3'
  have a1 := h3'.left.cast (q := p + ldLen (s-3) + ldLen (s-2) + 12) (by len)
  have h4' := h3'.right
  have l1 := h4'.left.cast (q := p + ldLen (s-3) + ldLen (s-2) + 18) (by len)
  have st := h4'.right.cast (q := p + ldLen (s-3) + ldLen (s-2) + 21) (by len)
  clear h h1 h2' h3' h4'
  refine R_ld 7 (by decide) (s-3) h3 o1 (aligned_slot hal _) ?_
  rw [hP]
  refine R_ld 6 (by decide) (s-2) h2 o2 (aligned_slot hal _) ?_
  rw [show (m.set 7 E.P).mem (slot ((m.set 7 E.P).regs 5) (s - 2)) = cl from hcl]
  obtain ⟨m1, e1, ⟨k1, k2⟩, v1⟩ := he.values (at_ (((m.set 7 E.P).set 6 cl).set 0 E.fValues) (p + ldLen (s-3) + ldLen (s-2) + 10))
    h16 rfl rfl
  refine callC_run (m' := m1) E.fValues c1 e1 ?_
  have k1' : saved m1 = saved m := k1
  have k2' : ∀ A, Live H m A → m1.mem A = m.mem A := k2
  unfold InFrame at hb
  have el : ([0x48#8, 0x05#8] ++ asmI (16 + b * 8)).length = 6 := by len
  refine R_bytes (m1.alu .add 0 (m1.regs 0) (BitVec.ofInt 64 (16 + b * 8))) _ (.alui .add 0 (16 + b * 8))
    (decode_addi _ (by omega)) a1 rfl ?_
  rw [el]
  have v1 : m1.regs 0 = tup := v1
  have hv : m1.mem (m1.regs 0 + BitVec.ofInt 64 (16 + b * 8)) = w := by
    rw [v1, k2' _ (.inr hHw)]; exact hw
  generalize hm2 : m1.alu .add 0 (m1.regs 0) (BitVec.ofInt 64 (16 + b * 8)) = m2
  have f0 : m2.regs 0 = m1.regs 0 + BitVec.ofInt 64 (16 + b * 8) := by rw [← hm2]; rfl
  have fs : saved m2 = saved m1 := by rw [← hm2]; rfl
  have fm : m2.mem = m1.mem := by rw [← hm2]; rfl
  have al : aligned (m1.regs 0 + BitVec.ofInt 64 (16 + b * 8)) = true := by
    unfold aligned at al1 ⊢
    simp only [beq_iff_eq] at al1 ⊢
    rw [v1, BitVec.toNat_add, BitVec.toNat_ofInt]
    omega
  refine R_cast (p + ldLen (s-3) + ldLen (s-2) + 18) (by omega) ?_
  refine R_bytes (m2.set 0 w) _ (.mov (.reg 0) (.mem 0 0)) (fun _ => rfl) l1 ?_ ?_
  · have ez : (at_ m2 (p + ldLen (s-3) + ldLen (s-2) + 18)).ea (.mem 0 0) = m1.regs 0 + BitVec.ofInt 64 (16 + b * 8) := by
      show m2.regs 0 + 0#64 = _
      rw [BitVec.add_zero, f0]
    have eg : (at_ m2 (p + ldLen (s-3) + ldLen (s-2) + 18)).get (.mem 0 0) = some w := by
      show (if aligned _ then some _ else none) = _
      rw [ez, if_pos al]
      show some (m2.mem _) = _
      rw [fm, show m1.mem (m1.regs 0 + BitVec.ofInt 64 (16 + b * 8)) = w from hv]
    simp only [Mach.exec, eg]; rfl
  refine st_end (m := m) (c := m2.set 0 w) _ hal ha st (by len) (fs.trans k1') (fun A hA => ?_)
  show m2.mem A = _
  rw [fm]; exact k2' A hA

/-- EQ, NEQ. -/
theorem eq_run {fn P : PN} {r : PN} (hal : aligned (m.regs 5) = true) {a b s : Int}
    (ha : InFrame a) (hb : InFrame b) (h3 : InFrame (s - 3)) (hP : m.mem (slot (m.regs 5) (s - 3)) = P)
    (he : ∀ c : Mach, saved c = saved m → c.mem = m.mem → c.regs 7 = P → c.regs 6 = m.mem (slot (m.regs 5) a) →
      c.regs 2 = m.mem (slot (m.regs 5) b) → ∃ m', ext fn c = some m' ∧ Kept H c m' ∧ m'.regs 0 = r)
    (h : At code p (argO (s - 3) 0 ++ argO a 1 ++ argO b 2 ++ callC fn ++ movRbp 0x89#8 a)) :
    Reach ext code (at_ m p) (Wrote H m (p + (argO (s - 3) 0 ++ argO a 1 ++ argO b 2 ++ callC fn ++ movRbp 0x89#8 a).length) a r) := by
  have hl : (argO (s - 3) 0 ++ argO a 1 ++ argO b 2 ++ callC fn ++ movRbp 0x89#8 a).length =
      ldLen (s - 3) + ldLen a + ldLen b + 12 + ldLen a := by len
  rw [hl]
  simp only [List.append_assoc] at h
  have o1 := h.left
  have h1 := h.right
  have o2 := h1.left.cast (q := p + ldLen (s-3)) (by len)
  have h2' := h1.right
  have o3 := h2'.left.cast (q := p + ldLen (s-3) + ldLen a) (by len)
  have h3' := h2'.right
  have c1 := h3'.left.cast (q := p + ldLen (s-3) + ldLen a + ldLen b) (by len)
  have st := h3'.right.cast (q := p + ldLen (s-3) + ldLen a + ldLen b + 12) (by len)
  clear h h1 h2' h3'
  generalize hwx : m.mem (slot (m.regs 5) a) = x at *
  generalize hwy : m.mem (slot (m.regs 5) b) = y at *
  refine R_ld 7 (by decide) (s-3) h3 o1 (aligned_slot hal _) ?_
  rw [hP]
  refine R_ld 6 (by decide) a ha o2 (aligned_slot hal _) ?_
  rw [show (m.set 7 P).mem (slot ((m.set 7 P).regs 5) a) = x from hwx]
  refine R_ld 2 (by decide) b hb o3 (aligned_slot hal _) ?_
  rw [show ((m.set 7 P).set 6 x).mem (slot (((m.set 7 P).set 6 x).regs 5) b) = y from hwy]
  obtain ⟨m1, e1, ⟨k1, k2⟩, v1⟩ := he (at_ ((((m.set 7 P).set 6 x).set 2 y).set 0 fn) (p + ldLen (s-3) + ldLen a + ldLen b + 10))
    rfl rfl rfl rfl rfl
  refine callC_run (m' := m1) fn c1 e1 ?_
  rw [← v1]
  exact st_end (m := m) (c := m1) _ hal ha st (by omega) k1 k2

/-- The state `m` with the word at address `X` set to `v`. -/
def WroteAt (H : PN → Prop) (m : Mach) (p : Nat) (X : PN) (v : PN) (m' : Mach) : Prop :=
  m'.rip = p ∧ saved m' = saved m ∧ ∀ A, Live H m A → m'.mem A = if A = X then v else m.mem A

/-- GETUPVAL. -/
theorem getupval_run (hal : aligned (m.regs 5) = true) {a b : Int} (ha : InFrame a) (hb : InFrame b)
    (hr : aligned (m.mem (slot (m.regs 5) b) + 8#64) = true)
    (h : At code p (movRbp 0x8B#8 b ++ [0x48#8, 0x8B#8, 0x40#8, 8#8] ++ movRbp 0x89#8 a)) :
    Reach ext code (at_ m p) (Wrote H m (p + (movRbp 0x8B#8 b ++ [0x48#8, 0x8B#8, 0x40#8, 8#8] ++ movRbp 0x89#8 a).length) a
      (m.mem (m.mem (slot (m.regs 5) b) + 8#64))) := by
  have hl : (movRbp 0x8B#8 b ++ [0x48#8, 0x8B#8, 0x40#8, 8#8] ++ movRbp 0x89#8 a).length = ldLen b + 4 + ldLen a := by len
  rw [hl]
  simp only [List.append_assoc] at h
  have o1 := h.left
  have h1 := h.right
  have o2 := h1.left.cast (q := p + ldLen b) (by len)
  have st := h1.right.cast (q := p + ldLen b + 4) (by len)
  clear h h1
  generalize hwx : m.mem (slot (m.regs 5) b) = x at *
  refine R_ld 0 (by decide) b hb o1 (aligned_slot hal _) ?_
  rw [hwx]
  refine R_bytes ((m.set 0 x).set 0 (m.mem (x + 8#64))) _ (.mov (.reg 0) (.mem 0 8)) (fun _ => rfl) o2 ?_ ?_
  · have eg : (at_ (m.set 0 x) (p + ldLen b)).get (.mem 0 8) = some (m.mem (x + 8#64)) := by
      show (if aligned (x + 8#64) then some (m.mem (x + 8#64)) else none) = _
      rw [if_pos hr]
    simp only [Mach.exec, eg]; rfl
  exact R_cast (p + ldLen b + 4) (by len) (st_end (m := m) _ hal ha st (by omega) rfl (fun A _ => rfl))

/-- SETUPVAL. -/
theorem setupval_run (hal : aligned (m.regs 5) = true) {a b : Int} (ha : InFrame a) (hb : InFrame b)
    (hr : aligned (m.mem (slot (m.regs 5) b) + 8#64) = true)
    (h : At code p (movRbpDx 0x8B#8 a ++ movRbp 0x8B#8 b ++ [0x48#8, 0x89#8, 0x50#8, 8#8])) :
    Reach ext code (at_ m p) (WroteAt H m (p + (movRbpDx 0x8B#8 a ++ movRbp 0x8B#8 b ++ [0x48#8, 0x89#8, 0x50#8, 8#8]).length)
      (m.mem (slot (m.regs 5) b) + 8#64) (m.mem (slot (m.regs 5) a))) := by
  have hl : (movRbpDx 0x8B#8 a ++ movRbp 0x8B#8 b ++ [0x48#8, 0x89#8, 0x50#8, 8#8]).length = ldLen a + ldLen b + 4 := by len
  rw [hl]
  simp only [List.append_assoc] at h
  have o1 := h.left
  have h1 := h.right
  have o2 := h1.left.cast (q := p + ldLen a) (by len)
  have st := h1.right.cast (q := p + ldLen a + ldLen b) (by len)
  clear h h1
  generalize hwx : m.mem (slot (m.regs 5) b) = x at *
  generalize hwy : m.mem (slot (m.regs 5) a) = y at *
  refine R_ld 2 (by decide) a ha o1 (aligned_slot hal _) ?_
  rw [hwy]
  refine R_ld 0 (by decide) b hb o2 (aligned_slot hal _) ?_
  rw [show (m.set 2 y).mem (slot ((m.set 2 y).regs 5) b) = x from hwx]
  refine R_bytes (((m.set 2 y).set 0 x).put (x + 8#64) y) _ (.mov (.mem 0 8) (.reg 2)) (fun _ => rfl) st ?_ (.done ?_)
  · show (if aligned (x + 8#64) then _ else _) = _
    rw [if_pos hr]; rfl
  · exact ⟨by simp only [at_]; len, rfl, fun A _ => rfl⟩

/-- Only the instruction pointer, `%rax` and the flags have changed. -/
def Moved (m : Mach) (q : Nat) (m' : Mach) : Prop := m'.rip = q ∧ saved m' = saved m ∧ m'.mem = m.mem

/-- JMP. -/
theorem jmp_run (q : Nat) (d : Int) (hd : -(2^31) ≤ d ∧ d < 2^31) (h : At code p ([0xE9#8] ++ asmI d))
    (hq : (q : Int) = p + 5 + d) : Reach1 ext code (at_ m p) (Moved m q) :=
  R1_jmp32 q d hd h hq (.done ⟨rfl, rfl, rfl⟩)

/-- TESTJMP. -/
theorem testjmp_run (hal : aligned (m.regs 5) = true) {a : Int} (ha : InFrame a) (q : Nat) (d : Int)
    (hd : -(2^31) ≤ d ∧ d < 2^31)
    (h : At code p (movRbp 0x8B#8 a ++ [0x48#8, 0x83#8, 0xF8#8, 0x02#8, 0x74#8, 10#8] ++
      [0x48#8, 0x85#8, 0xC0#8, 0x74#8, 5#8] ++ [0xE9#8] ++ asmI d))
    (hq : (q : Int) = p + (ldLen a + 16 : Nat) + d) :
    Reach1 ext code (at_ m p) (Moved m (if pnTest (m.mem (slot (m.regs 5) a)) then q else p + (ldLen a + 16))) := by
  simp only [List.append_assoc] at h
  have o1 := h.left
  have h1 : At code _ ([0x48#8, 0x83#8, 0xF8#8, 0x02#8] ++ ([0x74#8, 10#8] ++ ([0x48#8, 0x85#8, 0xC0#8] ++ ([0x74#8, 5#8] ++
    ([0xE9#8] ++ asmI d))))) := h.right
  have c1 := h1.left.cast (q := p + ldLen a) (by len)
  have h2 := h1.right
  have j1 := h2.left.cast (q := p + ldLen a + 4) (by len)
  have h3 := h2.right
  have c2 := h3.left.cast (q := p + ldLen a + 6) (by len)
  have h4 := h3.right
  have j2 := h4.left.cast (q := p + ldLen a + 9) (by len)
  have j3 := h4.right.cast (q := p + ldLen a + 11) (by len)
  clear h h1 h2 h3 h4
  generalize hw : m.mem (slot (m.regs 5) a) = w
  refine R1_ld 0 (by decide) a ha o1 (aligned_slot hal a) ?_
  rw [hw]
  refine R_bytes ((m.set 0 w).alu .cmp 0 w 2#64) _ (.alui .cmp 0 2) (fun _ => rfl) c1 rfl ?_
  by_cases hf : w = PN_FALSE
  · subst hf
    refine R_yes (p + (ldLen a + 16)) 10 _ _ .e (fun _ => rfl) j1 rfl (by len) rfl (.done ⟨rfl, rfl, rfl⟩)
  · refine R_no _ _ .e (fun _ => rfl) j1 ?_ ?_
    · show some (w - 2#64 == 0#64) = some false
      rw [beq_false_of_ne]
      intro e
      apply hf
      rw [BitVec.sub_eq_iff_eq_add, BitVec.zero_add] at e
      exact e
    refine R_bytes (((m.set 0 w).alu .cmp 0 w 2#64).alu .test 0 w w) _ (.alu .test 0 0) (fun _ => rfl) c2 rfl ?_
    by_cases hz : w = PN_NIL
    · subst hz
      exact R_yes (p + (ldLen a + 16)) 5 _ _ .e (fun _ => rfl) j2 rfl (by len) rfl (.done ⟨rfl, rfl, rfl⟩)
    · refine R_no _ _ .e (fun _ => rfl) j2 ?_ ?_
      · show some (w &&& w == 0#64) = some false
        rw [BitVec.and_self, beq_false_of_ne (show w ≠ 0#64 from hz)]
      have : pnTest w = true := by simp [pnTest, hf, hz]
      rw [this, if_pos rfl]
      exact R_cast (p + ldLen a + 11) (by len) (R_jmp32 q d hd j3 (by omega) (.done ⟨rfl, rfl, rfl⟩))

/-- NOTJMP. -/
theorem notjmp_run (hal : aligned (m.regs 5) = true) {a : Int} (ha : InFrame a) (q : Nat) (d : Int)
    (hd : -(2^31) ≤ d ∧ d < 2^31)
    (h : At code p (movRbp 0x8B#8 a ++ [0x48#8, 0x83#8, 0xF8#8, 0x02#8, 0x74#8, 5#8] ++
      [0x48#8, 0x85#8, 0xC0#8, 0x75#8, 5#8] ++ [0xE9#8] ++ asmI d))
    (hq : (q : Int) = p + (ldLen a + 16 : Nat) + d) :
    Reach1 ext code (at_ m p) (Moved m (if pnTest (m.mem (slot (m.regs 5) a)) then p + (ldLen a + 16) else q)) := by
  simp only [List.append_assoc] at h
  have o1 := h.left
  have h1 : At code _ ([0x48#8, 0x83#8, 0xF8#8, 0x02#8] ++ ([0x74#8, 5#8] ++ ([0x48#8, 0x85#8, 0xC0#8] ++ ([0x75#8, 5#8] ++
    ([0xE9#8] ++ asmI d))))) := h.right
  have c1 := h1.left.cast (q := p + ldLen a) (by len)
  have h2 := h1.right
  have j1 := h2.left.cast (q := p + ldLen a + 4) (by len)
  have h3 := h2.right
  have c2 := h3.left.cast (q := p + ldLen a + 6) (by len)
  have h4 := h3.right
  have j2 := h4.left.cast (q := p + ldLen a + 9) (by len)
  have j3 := h4.right.cast (q := p + ldLen a + 11) (by len)
  clear h h1 h2 h3 h4
  generalize hw : m.mem (slot (m.regs 5) a) = w
  refine R1_ld 0 (by decide) a ha o1 (aligned_slot hal a) ?_
  rw [hw]
  refine R_bytes ((m.set 0 w).alu .cmp 0 w 2#64) _ (.alui .cmp 0 2) (fun _ => rfl) c1 rfl ?_
  by_cases hf : w = PN_FALSE
  · subst hf
    refine R_yes (p + ldLen a + 11) 5 _ _ .e (fun _ => rfl) j1 rfl (by len) rfl ?_
    exact R_jmp32 q d hd j3 (by omega) (.done ⟨rfl, rfl, rfl⟩)
  · refine R_no _ _ .e (fun _ => rfl) j1 ?_ ?_
    · show some (w - 2#64 == 0#64) = some false
      rw [beq_false_of_ne]
      intro e
      apply hf
      rw [BitVec.sub_eq_iff_eq_add, BitVec.zero_add] at e
      exact e
    refine R_bytes (((m.set 0 w).alu .cmp 0 w 2#64).alu .test 0 w w) _ (.alu .test 0 0) (fun _ => rfl) c2 rfl ?_
    by_cases hz : w = PN_NIL
    · subst hz
      refine R_no _ _ .ne (fun _ => rfl) j2 rfl ?_
      exact R_cast (p + ldLen a + 11) (by len) (R_jmp32 q d hd j3 (by omega) (.done ⟨rfl, rfl, rfl⟩))
    · have : pnTest w = true := by simp [pnTest, hf, hz]
      rw [this, if_pos rfl]
      refine R_yes (p + (ldLen a + 16)) 5 _ _ .ne (fun _ => rfl) j2 rfl (by len) ?_ (.done ⟨rfl, rfl, rfl⟩)
      show some (!(w &&& w == 0#64)) = some true
      rw [BitVec.and_self, beq_false_of_ne (show w ≠ 0#64 from hz)]; rfl

/-- RETURN: the value of slot 0 in `%rax`, the caller's frame, its return address and stack pointer. -/
theorem ret_run (hal : aligned (m.regs 5) = true) (h : At code p (movRbp 0x8B#8 0 ++ [0xC9#8, 0xC3#8])) :
    ∃ k m1 m', Run ext code k (at_ m p) m1 ∧ m1.step ext code = .ret m' (m.mem (m.regs 5 + 8#64)) ∧
      m'.regs 0 = m.mem (slot (m.regs 5) 0) ∧ saved m' = (m.regs 5 + 16#64, m.mem (m.regs 5), (saved m).2.2) ∧
      m'.mem = m.mem := by
  have o1 := h.left
  have h1 : At code _ ([0xC9#8] ++ [0xC3#8]) := h.right
  have l1 := h1.left.cast (q := p + ldLen 0) (by len)
  have r1 := h1.right.cast (q := p + ldLen 0 + 1) (by len)
  have ea : aligned (m.regs 5 + 8#64) = true := by
    unfold aligned at hal ⊢
    simp only [beq_iff_eq] at hal ⊢
    rw [BitVec.toNat_add]; simp; omega
  have R : Reach ext code (at_ m p) fun m1 => ∃ m', m1.step ext code = .ret m' (m.mem (m.regs 5 + 8#64)) ∧
      m'.regs 0 = m.mem (slot (m.regs 5) 0) ∧ saved m' = (m.regs 5 + 16#64, m.mem (m.regs 5), (saved m).2.2) ∧
      m'.mem = m.mem := by
    refine R_ld 0 (by decide) 0 (by decide) o1 (aligned_slot hal _) ?_
    generalize hw : m.mem (slot (m.regs 5) 0) = w
    refine R_bytes (((m.set 0 w).set 5 (m.mem (m.regs 5))).set 4 (m.regs 5 + 8#64)) _ .leave (fun _ => rfl) l1 ?_ ?_
    · show (if aligned (m.regs 5) then _ else _) = _
      rw [if_pos hal]; rfl
    refine .done ⟨((((m.set 0 w).set 5 (m.mem (m.regs 5))).set 4 (m.regs 5 + 8#64)).set 4 (m.regs 5 + 8#64 + 8#64) |> fun c => at_ c (p + ldLen 0 + 1)), ?_, rfl, ?_, rfl⟩
    · rw [step_bytes (i := .ret) r1 (fun _ => rfl)]
      show (if aligned (m.regs 5 + 8#64) then _ else _) = _
      rw [if_pos ea]; rfl
    · show (m.regs 5 + 8#64 + 8#64, _) = _
      rw [BitVec.add_assoc]; rfl
  obtain ⟨k, m1, r, m', q⟩ := R
  exact ⟨k, m1, m', r, q⟩

end Potion.Jit
