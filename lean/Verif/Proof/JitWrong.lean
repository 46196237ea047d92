import Verif.Proof.JitMain
/-!
Where generated code does something else than the interpreter.
-/
namespace Potion.Jit
open Potion Potion.X86 Potion.Vm

variable {ext : Ext} {code : List Byte} {m : Mach} {p : Nat} {H : PN → Prop}

theorem Reach.fault {m : Mach} {Q : Mach → Prop} (h : Reach ext code m Q) (hq : ∀ m', Q m' → m'.step ext code = .fault) :
    ∃ k, m.steps ext code k = some .fault := by
  obtain ⟨k, m', r, q⟩ := h
  refine ⟨k + 1, ?_⟩
  rw [r.steps, Mach.steps, hq m' q]

/-- The high bytes of a displacement between -256 and -1. -/
theorem asmI_tail (x : Int) (h : -256 ≤ x ∧ x < 0) : ∃ b, asmI x = [b, 0xFF#8, 0xFF#8, 0xFF#8] := by
  have : ∀ n : Fin 256, ∃ b, asmI (-256 + n.val) = [b, 0xFF#8, 0xFF#8, 0xFF#8] := by decide +kernel
  obtain ⟨b, hb⟩ := this ⟨(x + 256).toNat, by omega⟩
  refine ⟨b, ?_⟩
  rw [← hb]
  congr 1
  show x = -256 + ((x + 256).toNat : Int)
  omega

theorem numcmp_wrong (hal : aligned (m.regs 5) = true) {a b : Int} (ha : 16 ≤ a ∧ a ≤ 31) (hb : InFrame b)
    (iop xop : Byte) (cc : Cc) (hd : ∀ d t, decode ([iop, d] ++ t) = some (.jcc cc d.toInt, 2))
    (hx : isInt (m.mem (slot (m.regs 5) a)) = true) (hy : isInt (m.mem (slot (m.regs 5) b)) = true)
    (hc : ∀ c : Mach, (c.alu .cmp 2 (m.mem (slot (m.regs 5) a)) (m.mem (slot (m.regs 5) b))).cc cc = some false)
    (h : At code p (numcmp iop xop a b)) : ∃ k, (at_ m p).steps ext code k = some .fault := by
  have hb' := hb
  refine (numcmp_gen (H := fun _ => False) hal (a := a) ⟨by omega, by omega⟩ hb iop xop cc hd false hx hy hc h).fault fun m' hm => ?_
  have hL : ldLen a = 7 := by unfold ldLen; rw [if_pos (by omega)]
  have hr := hm.1
  rw [hL, if_neg (by omega : ¬ a > 31)] at hr
  simp only [Bool.false_eq_true, if_false] at hr
  -- the three bytes before the end
  obtain ⟨d, hd3⟩ := asmI_tail (-((a + 1) * 8)) (by omega)
  obtain ⟨pre, hpre⟩ : ∃ pre, numcmp iop xop a b = pre ++ [0xFF#8, 0xFF#8, 0xFF#8] := by
    rw [numcmp_shape]
    refine ⟨movRbpDx 0x8B#8 a ++ (movRbp 0x8B#8 b ++ ([0xA8#8, 0x01#8] ++ ([0x74#8, 31#8] ++ ([0xF6#8, 0xC2#8, 0x01#8] ++
      ([0x74#8, 7#8] ++ ([0x48#8, 0x39#8, 0xC2#8] ++ ([iop, BitVec.ofNat 8 (58 + (10 + ldLen a))] ++ ([0xEB#8, 54#8] ++ (dblBytes xop a ++
      (movq a PN_FALSE ++ ([0xEB#8, if a > 31 then 17#8 else 14#8] ++
      ([0x48#8, 0xB8#8] ++ asmN PN_TRUE ++ [0x48#8, 0x89#8] ++ [0x45#8 + 0x40#8, d])))))))))))), ?_⟩
    have : movq a PN_TRUE = [0x48#8, 0xB8#8] ++ asmN PN_TRUE ++ [0x48#8, 0x89#8] ++ [0x45#8 + 0x40#8, d] ++ [0xFF#8, 0xFF#8, 0xFF#8] := by
      unfold movq movEbp
      rw [if_pos (by omega), hd3]
      simp
    rw [this]
    simp only [List.append_assoc, List.cons_append, List.nil_append]
  have hl : (numcmp iop xop a b).length = pre.length + 3 := by rw [hpre]; simp
  have hge : 17 ≤ (numcmp iop xop a b).length := by
    rw [numcmp_shape]; len
  rw [hpre] at h
  have hat := h.right
  obtain ⟨t, ht⟩ := hat
  unfold Mach.step
  rw [hr, show p + (numcmp iop xop a b).length - (10 + 7) + 14 = p + pre.length by omega, ht]
  rfl

theorem decode_testd (d : Int) (hd : -(2^31) ≤ d ∧ d < 2^31) (t : List Byte) :
    decode ([0xF7#8, 0xC0#8] ++ asmI d ++ t) = some (.testd 0 d, ([0xF7#8, 0xC0#8] ++ asmI d).length) := by
  have := imm32_asmI d hd t
  simp only [List.cons_append, List.nil_append] at this ⊢
  simp [decode, modrm, this, asmI_length]

theorem decode_cmpd (d : Int) (hd : -(2^31) ≤ d ∧ d < 2^31) (t : List Byte) :
    decode ([0x81#8, 0x38#8] ++ asmI d ++ t) = some (.cmpd (.mem 0 0) d, ([0x81#8, 0x38#8] ++ asmI d).length) := by
  have := imm32_asmI d hd t
  simp only [List.cons_append, List.nil_append] at this ⊢
  simp [decode, modrm, this, asmI_length]

/-- `cmpq WEAK (%rax)` and the tests before it, on a cell. -/
theorem setlocal_ref_run (hal : aligned (m.regs 5) = true) {a l : Int} (ha : InFrame a) (hl : InFrame l) {q : PN}
    (hq : m.mem (slot (m.regs 5) l) = q) (hqa : aligned q = true) (hq0 : q.setWidth 32 &&& BitVec.ofInt 32 (-8) ≠ 0#32)
    (htw : (m.mem q).setWidth 32 = BitVec.ofInt 32 0x250006)
    (h : At code p (movRbpDx 0x8B#8 a ++ (movRbp 0x8B#8 l ++ refTest [0x48#8, 0x89#8, 0x50#8, 8#8]) ++ movRbpDx 0x89#8 l)) :
    Reach ext code (at_ m p) fun m' => m'.rip = p + (movRbpDx 0x8B#8 a ++ (movRbp 0x8B#8 l ++ refTest [0x48#8, 0x89#8, 0x50#8, 8#8]) ++ movRbpDx 0x89#8 l).length ∧
      saved m' = saved m ∧ m'.mem = fun A => if A = slot (m.regs 5) l then m.mem (slot (m.regs 5) a)
        else if A = q + 8#64 then m.mem (slot (m.regs 5) a) else m.mem A := by
  have hlen : (movRbpDx 0x8B#8 a ++ (movRbp 0x8B#8 l ++ refTest [0x48#8, 0x89#8, 0x50#8, 8#8]) ++ movRbpDx 0x89#8 l).length =
      ldLen a + ldLen l + 25 + ldLen l := by unfold refTest; len
  rw [hlen]
  unfold refTest at h
  simp only [List.append_assoc] at h
  have o1 := h.left
  have h1 := h.right
  have o2 := h1.left.cast (q := p + ldLen a) (by len)
  have h2 : At code (p + ldLen a + ldLen l) ([0xF6#8, 0xC0#8, 0x01#8] ++ ([0x75#8, 20#8] ++ (([0xF7#8, 0xC0#8] ++ asmI (-8)) ++ ([0x74#8, 12#8] ++
    (([0x81#8, 0x38#8] ++ asmI 0x250006) ++ ([0x75#8, 4#8] ++ ([0x48#8, 0x89#8, 0x50#8, 8#8] ++ movRbpDx 0x89#8 l))))))) := by
    have := h1.right.cast (q := p + ldLen a + ldLen l) (by len)
    simpa only [List.append_assoc, List.cons_append, List.nil_append] using this
  have t1 := h2.left.cast (q := p + ldLen a + ldLen l) (by len)
  have h3 := h2.right
  have j1 := h3.left.cast (q := p + ldLen a + ldLen l + 3) (by len)
  have h4 := h3.right
  have t2 := h4.left.cast (q := p + ldLen a + ldLen l + 5) (by len)
  have h5 := h4.right
  have j2 := h5.left.cast (q := p + ldLen a + ldLen l + 11) (by len)
  have h6 := h5.right
  have t3 := h6.left.cast (q := p + ldLen a + ldLen l + 13) (by len)
  have h7 := h6.right
  have j3 := h7.left.cast (q := p + ldLen a + ldLen l + 19) (by len)
  have h8 := h7.right
  have s1 := h8.left.cast (q := p + ldLen a + ldLen l + 21) (by len)
  have s2 := h8.right.cast (q := p + ldLen a + ldLen l + 25) (by len)
  clear h h1 h2 h3 h4 h5 h6 h7 h8
  generalize hx : m.mem (slot (m.regs 5) a) = x
  have qi : isInt q = false := by
    unfold aligned at hqa
    simp only [beq_iff_eq] at hqa
    have e : q &&& 1#64 = 0#64 := by
      apply BitVec.eq_of_toNat_eq
      rw [BitVec.toNat_and]
      show q.toNat &&& 1 = 0
      rw [Nat.and_one_is_mod]
      omega
    unfold isInt
    rw [e]; rfl
  have q8 : aligned (q + 8#64) = true := by
    unfold aligned at hqa ⊢
    simp only [beq_iff_eq] at hqa ⊢
    rw [BitVec.toNat_add]; simp; omega
  refine R_ld 2 (by decide) a ha o1 (aligned_slot hal a) ?_
  rw [hx]
  refine R_ld 0 (by decide) l hl o2 (aligned_slot hal l) ?_
  rw [show (m.set 2 x).mem (slot ((m.set 2 x).regs 5) l) = q from hq]
  refine R_bytes (((m.set 2 x).set 0 q).flags (q.setWidth 8 &&& 0x01#8) (some false)) _ (.testb 0 1#8) (fun _ => rfl) t1 rfl ?_
  refine R_no _ _ .ne (fun _ => rfl) j1 ?_ ?_
  · show some (!(_ == _)) = some false
    rw [test1, qi]; rfl
  generalize hm1 : ((m.set 2 x).set 0 q).flags (q.setWidth 8 &&& 0x01#8) (some false) = m1
  have f0 : m1.regs 0 = q := by rw [← hm1]; rfl
  have f2 : m1.regs 2 = x := by rw [← hm1]; rfl
  have fs : saved m1 = saved m := by rw [← hm1]; rfl
  have fm : m1.mem = m.mem := by rw [← hm1]; rfl
  refine R_bytes (m1.flags (q.setWidth 32 &&& BitVec.ofInt 32 (-8)) (some false)) _ (.testd 0 (-8)) (decode_testd (-8) (by omega)) t2 ?_ ?_
  · rw [← f0]; rfl
  refine R_no _ _ .e (fun _ => rfl) j2 ?_ ?_
  · show some (_ == _) = some false
    rw [beq_false_of_ne hq0]
  generalize hm2 : m1.flags (q.setWidth 32 &&& BitVec.ofInt 32 (-8)) (some false) = m2
  have g0 : m2.regs 0 = q := by rw [← hm2]; exact f0
  have g2 : m2.regs 2 = x := by rw [← hm2]; exact f2
  have gs : saved m2 = saved m := by rw [← hm2]; exact fs
  have gm : m2.mem = m.mem := by rw [← hm2]; exact fm
  refine R_bytes (m2.flags ((m.mem q).setWidth 32 - BitVec.ofInt 32 0x250006) (some (!fits 32 (((m.mem q).setWidth 32).toInt - (BitVec.ofInt 32 0x250006).toInt))))
    _ (.cmpd (.mem 0 0) 0x250006) (decode_cmpd 0x250006 (by omega)) t3 ?_ ?_
  · have ez : ∀ n, (at_ m2 n).ea (.mem 0 0) = q := by
      intro n
      show m2.regs 0 + 0#64 = _
      rw [BitVec.add_zero, g0]
    have eg : ∀ n, (at_ m2 n).get (.mem 0 0) = some (m.mem q) := by
      intro n
      show (if aligned _ then some _ else none) = _
      rw [ez, if_pos hqa]
      show some (m2.mem _) = _
      rw [gm]
    simp only [Mach.exec, eg]
    rfl
  refine R_no _ _ .ne (fun _ => rfl) j3 ?_ ?_
  · show some (!(_ == _)) = some false
    rw [htw]; rfl
  generalize hm3 : m2.flags ((m.mem q).setWidth 32 - BitVec.ofInt 32 0x250006) (some (!fits 32 (((m.mem q).setWidth 32).toInt - (BitVec.ofInt 32 0x250006).toInt))) = m3
  have k0 : m3.regs 0 = q := by rw [← hm3]; exact g0
  have k2 : m3.regs 2 = x := by rw [← hm3]; exact g2
  have ks : saved m3 = saved m := by rw [← hm3]; exact gs
  have km : m3.mem = m.mem := by rw [← hm3]; exact gm
  refine R_bytes (m3.put (q + 8#64) x) _ (.mov (.mem 0 8) (.reg 2)) (fun _ => rfl) s1 ?_ ?_
  · show (if aligned (m3.regs 0 + 8#64) then _ else _) = _
    rw [k0, if_pos q8]
    show Out.run { m3.put (m3.regs 0 + 8#64) (m3.regs 2) with rip := _ } = _
    rw [k0, k2]; rfl
  refine R_st 2 (by decide) l hl s2 (aligned_slot (by show aligned (m3.regs 5) = true; rw [saved_rbp ks]; exact hal) l) (.done ⟨?_, ks, ?_⟩)
  · simp only [at_]; len
  · funext A
    show (if A = slot (m3.regs 5) l then m3.regs 2 else if A = q + 8#64 then x else m3.mem A) = _
    rw [saved_rbp ks, k2, km]

/-- GETLOCAL of a variable that holds an integer, in a function whose variables are captured. -/
theorem getlocal_int_run (hal : aligned (m.regs 5) = true) {a l : Int} (ha : InFrame a) (hl : InFrame l)
    (hq : isInt (m.mem (slot (m.regs 5) l)) = true)
    (h : At code p (movRbp 0x8B#8 l ++ refTest [0x48#8, 0x8B#8, 0x40#8, 8#8] ++ movRbp 0x89#8 a)) :
    Reach ext code (at_ m p) (Wrote H m (p + (movRbp 0x8B#8 l ++ refTest [0x48#8, 0x8B#8, 0x40#8, 8#8] ++ movRbp 0x89#8 a).length) a
      (m.mem (slot (m.regs 5) l))) := by
  have hlen : (movRbp 0x8B#8 l ++ refTest [0x48#8, 0x8B#8, 0x40#8, 8#8] ++ movRbp 0x89#8 a).length = ldLen l + 25 + ldLen a := by
    unfold refTest; len
  rw [hlen]
  unfold refTest at h
  simp only [List.append_assoc] at h
  have o1 := h.left
  have h2 : At code (p + ldLen l) ([0xF6#8, 0xC0#8, 0x01#8] ++ ([0x75#8, 20#8] ++ (([0xF7#8, 0xC0#8] ++ asmI (-8)) ++ ([0x74#8, 12#8] ++
    (([0x81#8, 0x38#8] ++ asmI 0x250006) ++ ([0x75#8, 4#8] ++ ([0x48#8, 0x8B#8, 0x40#8, 8#8] ++ movRbp 0x89#8 a))))))) := by
    have := h.right.cast (q := p + ldLen l) (by len)
    simpa only [List.append_assoc, List.cons_append, List.nil_append] using this
  have t1 := h2.left
  have h3 := h2.right
  have j1 := h3.left.cast (q := p + ldLen l + 3) (by len)
  have s1 := h3.right.right.right.right.right.right.cast (q := p + ldLen l + 25) (by len)
  generalize hx : m.mem (slot (m.regs 5) l) = x at *
  refine R_ld 0 (by decide) l hl o1 (aligned_slot hal l) ?_
  rw [hx]
  refine R_bytes ((m.set 0 x).flags (x.setWidth 8 &&& 0x01#8) (some false)) _ (.testb 0 1#8) (fun _ => rfl) t1 rfl ?_
  refine R_yes (p + ldLen l + 25) 20 _ _ .ne (fun _ => rfl) j1 rfl (by len) ?_ ?_
  · show some (!(_ == _)) = some true
    rw [test1, hq]; rfl
  exact st_end (m := m) _ hal ha s1 (by omega) rfl (fun A _ => rfl)

end Potion.Jit
