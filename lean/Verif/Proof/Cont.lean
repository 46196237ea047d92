import Verif.Spec.Cont
/-!
The assembly of `potion_continuation_yield`, run symbolically; its loop by induction.
-/
namespace Potion.Cont
open Potion Potion.X86

theorem steps_run {code : List Asm} {k m m'} (h : step code m = .run m') : steps code (k + 1) m = steps code k m' := by
  simp [steps, h]

/-- `m` gets to `m'`. -/
def Gets (code : List Asm) (m m' : Mach) : Prop := ∃ j, ∀ k, steps code (j + k) m = steps code k m'

theorem Gets.refl (code m) : Gets code m m := ⟨0, fun k => by simp⟩
theorem Gets.trans {code m1 m2 m3} (h : Gets code m1 m2) (h' : Gets code m2 m3) : Gets code m1 m3 := by
  obtain ⟨j, h⟩ := h
  obtain ⟨j', h'⟩ := h'
  exact ⟨j + j', fun k => by rw [Nat.add_assoc, h, h']⟩
theorem Gets.one {code m m'} (h : step code m = .run m') : Gets code m m' :=
  ⟨1, fun k => by rw [Nat.add_comm, steps_run h]⟩

/-- A load, a store, an addition. -/
theorem gets_ld {code : List Asm} {m : Mach} {r b : Nat} {d : Int} (hc : code[m.rip]? = some (.i (.mov (.reg r) (.mem b d))))
    (ha : aligned (m.regs b + BitVec.ofInt 64 d) = true) :
    Gets code m { m.set r (m.mem (m.regs b + BitVec.ofInt 64 d)) with rip := m.rip + 1 } := by
  apply Gets.one
  have ha' : aligned (m.ea (.mem b d)) = true := ha
  simp only [step, hc, Mach.exec, Mach.get, ha', if_true]
  rfl
theorem gets_st {code : List Asm} {m : Mach} {r b : Nat} {d : Int} (hc : code[m.rip]? = some (.i (.mov (.mem b d) (.reg r))))
    (ha : aligned (m.regs b + BitVec.ofInt 64 d) = true) :
    Gets code m { m.put (m.regs b + BitVec.ofInt 64 d) (m.regs r) with rip := m.rip + 1 } := by
  apply Gets.one
  have ha' : aligned (m.ea (.mem b d)) = true := ha
  simp only [step, hc, Mach.exec, Mach.get, ha', if_true]
  rfl

theorem al {a : PN} (h : a.toNat % 8 = 0) : aligned a = true := by simp [aligned, h]

/-- The state of the loop before its `i`th turn: what has been copied. -/
structure Loop (o0 o1 o2 : Nat) (m0 : Mach) (src dst : PN) (n i : Nat) (m : Mach) : Prop where
  rip : m.rip = 4
  r0 : m.regs o0 = dst + BitVec.ofNat 64 (8 * i)
  r1 : m.regs o1 = dst + BitVec.ofNat 64 (8 * n)
  r2 : m.regs o2 = src + BitVec.ofNat 64 (8 * i)
  regs : ∀ r, r ≠ rax → r ≠ o0 → r ≠ o2 → m.regs r = m0.regs r
  done : ∀ j, j < i → m.mem (dst + BitVec.ofNat 64 (8 * (j + 1))) = m0.mem (src + BitVec.ofNat 64 (8 * j))
  rest : ∀ a, (∀ j, j < i → a ≠ dst + BitVec.ofNat 64 (8 * (j + 1))) → m.mem a = m0.mem a

theorem off {a : PN} {x : Nat} (h : a.toNat + x < 2 ^ 64) : (a + BitVec.ofNat 64 x).toNat = a.toNat + x := by
  rw [BitVec.toNat_add, BitVec.toNat_ofNat, Nat.mod_eq_of_lt (a := x) (by omega), Nat.mod_eq_of_lt h]

theorem offs (a : PN) (x y : Nat) : a + BitVec.ofNat 64 x + BitVec.ofNat 64 y = a + BitVec.ofNat 64 (x + y) := by
  rw [BitVec.add_assoc, ← BitVec.ofNat_add]

/-- One turn of the loop. -/
theorem loop_turn {o0 o1 o2 : Nat} (ok : OpsOk o0 o1 o2) {m0 m : Mach} {src dst : PN} {n i : Nat}
    (hs : src.toNat + 8 * n < 2 ^ 64) (hd : dst.toNat + 8 * n < 2 ^ 64) (as : src.toNat % 8 = 0) (ad : dst.toNat % 8 = 0)
    (apart : src.toNat + 8 * n ≤ dst.toNat ∨ dst.toNat + 8 * n < src.toNat) (hi : i < n)
    (L : Loop o0 o1 o2 m0 src dst n i m) : ∃ m', Gets (yieldAsm o0 o1 o2) m m' ∧
      (if i + 1 = n then Loop o0 o1 o2 m0 src dst n (i + 1) { m' with rip := 4 } ∧ m'.rip = 10
        else Loop o0 o1 o2 m0 src dst n (i + 1) m') := by
  have e0 : (dst + BitVec.ofNat 64 (8 * (i + 1))).toNat = dst.toNat + 8 * (i + 1) := off (by omega)
  have e2 : (src + BitVec.ofNat 64 (8 * i)).toNat = src.toNat + 8 * i := off (by omega)
  have hv : m.mem (src + BitVec.ofNat 64 (8 * i)) = m0.mem (src + BitVec.ofNat 64 (8 * i)) := by
    refine L.rest _ ?_
    intro j hj e
    have := congrArg BitVec.toNat e
    rw [e2, off (by omega)] at this
    omega
  have far : ∀ j, j < i → dst + BitVec.ofNat 64 (8 * (j + 1)) ≠ dst + BitVec.ofNat 64 (8 * (i + 1)) := by
    intro j hj e
    have := congrArg BitVec.toNat e
    rw [e0, off (by omega)] at this
    omega
  have eqn : dst + BitVec.ofNat 64 (8 * n) = dst + BitVec.ofNat 64 (8 * (i + 1)) → i + 1 = n := by
    intro e
    have := congrArg BitVec.toNat e
    rw [off (by omega), e0] at this
    omega
  have a2 : (src + BitVec.ofNat 64 (8 * i)).toNat % 8 = 0 := by omega
  have a0 : (dst + BitVec.ofNat 64 (8 * (i + 1))).toNat % 8 = 0 := by omega
  have split : ∀ j, j < i + 1 → j ≠ i → j < i := by omega
  obtain ⟨n01, n02, n12, nr⟩ := ok
  obtain ⟨p0, q0, _, _⟩ := nr o0 (by simp)
  obtain ⟨p1, q1, _, _⟩ := nr o1 (by simp)
  obtain ⟨p2, q2, _, _⟩ := nr o2 (by simp)
  generalize hv0 : m0.mem (src + BitVec.ofNat 64 (8 * i)) = v at hv
  obtain ⟨D, hD⟩ : ∃ D, D = dst + BitVec.ofNat 64 (8 * (i + 1)) := ⟨_, rfl⟩
  rw [← hD] at e0 eqn a0 far
  let ma : Mach := { m.set rax v with rip := 5 }
  have ga : Gets (yieldAsm o0 o1 o2) m ma := by
    have := gets_ld (code := yieldAsm o0 o1 o2) (m := m) (r := rax) (b := o2) (d := 0) (by rw [L.rip]; rfl)
      (al (by rw [L.r2]; simp only [BitVec.ofInt_ofNat, BitVec.add_zero, BitVec.ofNat_eq_ofNat]; exact a2))
    rw [L.r2, L.rip] at this
    simp only [BitVec.ofInt_ofNat, BitVec.add_zero, BitVec.ofNat_eq_ofNat] at this
    rw [hv] at this
    exact this
  let mb : Mach := { ma.alu .add o0 (ma.regs o0) 8#64 with rip := 6 }
  have gb : Gets (yieldAsm o0 o1 o2) ma mb := Gets.one rfl
  have rb0 : mb.regs o0 = D := by
    show (if o0 = o0 then _ else _) = _
    rw [if_pos rfl]
    show (if o0 = rax then _ else m.regs o0) + 8#64 = D
    rw [if_neg p0, L.r0]
    show _ + BitVec.ofNat 64 8 = _
    rw [offs, hD]; rfl
  have rb : ∀ r, r ≠ o0 → mb.regs r = if r = rax then v else m.regs r := by
    intro r hr
    show (if r = o0 then _ else _) = _
    rw [if_neg hr]; rfl
  let mc : Mach := { mb.put D v with rip := 7 }
  have gc : Gets (yieldAsm o0 o1 o2) mb mc := by
    have := gets_st (code := yieldAsm o0 o1 o2) (m := mb) (r := rax) (b := o0) (d := 0) rfl
      (al (by rw [rb0]; simp only [BitVec.ofInt_ofNat, BitVec.add_zero, BitVec.ofNat_eq_ofNat]; exact a0))
    rw [rb0, rb rax (fun h => p0 h.symm)] at this
    simp only [BitVec.ofInt_ofNat, BitVec.add_zero, BitVec.ofNat_eq_ofNat, if_true] at this
    exact this
  let md : Mach := { mc.alu .add o2 (mc.regs o2) 8#64 with rip := 8 }
  have gd : Gets (yieldAsm o0 o1 o2) mc md := Gets.one rfl
  let me : Mach := { md.alu .cmp o1 (md.regs o1) (md.regs o0) with rip := 9 }
  have ge : Gets (yieldAsm o0 o1 o2) md me := Gets.one rfl
  have rd : ∀ r, r ≠ o2 → md.regs r = mb.regs r := by
    intro r hr
    show (if r = o2 then _ else _) = _
    rw [if_neg hr]; rfl
  have re : me.regs = md.regs := rfl
  have zf : me.zf = decide (i + 1 = n) := by
    show (md.regs o1 - md.regs o0 == 0#64) = _
    rw [rd o1 n12, rd o0 n02, rb0, rb o1 (fun h => n01 h.symm), if_neg p1, L.r1]
    rw [Bool.eq_iff_iff, beq_iff_eq, decide_eq_true_eq]
    constructor
    · intro h
      have h2 : dst + BitVec.ofNat 64 (8 * n) = D := by
        have := congrArg (· + D) h
        simpa [BitVec.sub_add_cancel] using this
      exact eqn h2
    · rintro rfl
      rw [hD]
      exact BitVec.sub_self _
  have mem : me.mem = fun a => if a = D then v else m.mem a := rfl
  have key : Loop o0 o1 o2 m0 src dst n (i + 1) { me with rip := 4 } := by
    refine ⟨rfl, ?_, ?_, ?_, ?_, ?_, ?_⟩
    · show me.regs o0 = _
      rw [re, rd o0 n02, rb0, hD]
    · show me.regs o1 = _
      rw [re, rd o1 n12, rb o1 (fun h => n01 h.symm), if_neg p1, L.r1]
    · show (if o2 = o2 then _ else _) = _
      rw [if_pos rfl]
      show mb.regs o2 + 8#64 = _
      rw [rb o2 (fun h => n02 h.symm), if_neg p2, L.r2]
      show _ + BitVec.ofNat 64 8 = _
      rw [offs]; rfl
    · intro r h1 h2 h3
      show me.regs r = _
      rw [re, rd r h3, rb r h2, if_neg h1, L.regs r h1 h2 h3]
    · intro j hj
      show me.mem _ = _
      rw [mem]
      dsimp only
      by_cases hji : j = i
      · subst hji; rw [if_pos hD.symm, hv0]
      · rw [if_neg (far j (split j hj hji)), L.done j (split j hj hji)]
    · intro a ha
      show me.mem a = _
      rw [mem]
      dsimp only
      rw [if_neg (by rw [hD]; exact ha i (Nat.lt_succ_self i)), L.rest a (fun j hj => ha j (Nat.lt_succ_of_lt hj))]
  by_cases hn : i + 1 = n
  · refine ⟨{ me with rip := 10 }, ga.trans (gb.trans (gc.trans (gd.trans (ge.trans (Gets.one ?_))))), ?_⟩
    · show Mach.exec (fun _ _ => none) me 10 (.jcc .ne (-6)) = _
      have hz : me.cc .ne = some false := by simp [Mach.cc, zf, hn]
      simp only [Mach.exec, hz]
    · rw [if_pos hn]
      exact ⟨key, rfl⟩
  · refine ⟨{ me with rip := 4 }, ga.trans (gb.trans (gc.trans (gd.trans (ge.trans (Gets.one ?_))))), ?_⟩
    · show Mach.exec (fun _ _ => none) me 10 (.jcc .ne (-6)) = _
      have hz : me.cc .ne = some true := by simp [Mach.cc, zf, hn]
      simp only [Mach.exec, hz]
      rfl
    · rw [if_neg hn]
      exact key

/-- The loop: `n` words are copied. -/
theorem loop {o0 o1 o2 : Nat} (ok : OpsOk o0 o1 o2) {m0 m : Mach} {src dst : PN} {n i : Nat}
    (hs : src.toNat + 8 * n < 2 ^ 64) (hd : dst.toNat + 8 * n < 2 ^ 64) (as : src.toNat % 8 = 0) (ad : dst.toNat % 8 = 0)
    (apart : src.toNat + 8 * n ≤ dst.toNat ∨ dst.toNat + 8 * n < src.toNat) (hi : i < n)
    (L : Loop o0 o1 o2 m0 src dst n i m) : ∃ m', Gets (yieldAsm o0 o1 o2) m m' ∧
      Loop o0 o1 o2 m0 src dst n n { m' with rip := 4 } ∧ m'.rip = 10 := by
  induction hk : n - i generalizing i m with
  | zero => omega
  | succ k ih =>
    obtain ⟨m1, g, h⟩ := loop_turn ok hs hd as ad apart hi L
    by_cases hn : i + 1 = n
    · rw [if_pos hn] at h
      rw [hn] at h
      exact ⟨m1, g, h⟩
    · rw [if_neg hn] at h
      obtain ⟨m2, g2, h2⟩ := ih (by omega) h (by omega)
      exact ⟨m2, g.trans g2, h2⟩


/-- Register 4 words on. -/
theorem gets_i {code : List Asm} {m : Mach} {i : Instr} {m' : Mach} (hc : code[m.rip]? = some (.i i))
    (he : m.exec (fun _ _ => none) (m.rip + 1) i = .run m') : Gets code m m' := by
  apply Gets.one
  simp only [step, hc, he]

theorem slot_add (cc : PN) (i x : Nat) : slot cc i + BitVec.ofNat 64 (8 * x) = slot cc (i + x) := by
  rw [slot, slot, offs, show 16 + 8 * i + 8 * x = 16 + 8 * (i + x) by omega]

/-- The assembly from its first instruction: `n` words after the ninth slot go to the words above the saved stack pointer;
then the function of the saved frame returns. -/
theorem yield_run {o0 o1 o2 : Nat} (ok : OpsOk o0 o1 o2) {cc start : PN} {n : Nat} {m : Mach}
    (hn : 0 < n) (ac : cc.toNat % 8 = 0) (as : start.toNat % 8 = 0) (room : cc.toNat + 8 * (n + 11) < 2 ^ 64)
    (hs : start.toNat + 8 * n < 2 ^ 64) (apart : cc.toNat + 8 * (n + 11) ≤ start.toNat ∨ start.toNat + 8 * n < cc.toNat)
    (s1 : m.mem (slot cc 1) = start) (s0 : m.mem (slot cc 0) = start + BitVec.ofNat 64 (8 * n))
    (fp : start.toNat < (m.mem (slot cc 2)).toNat) (fa : (m.mem (slot cc 2)).toNat % 8 = 0)
    (ft : (m.mem (slot cc 2)).toNat + 8 ≤ start.toNat + 8 * n) :
    ∃ k m' ra, yield o0 o1 o2 (start + BitVec.ofNat 64 (8 * n)) cc k m = .asm (some (.ret m' ra)) ∧
      ra = m'.mem (m.mem (slot cc 2) + 8#64) ∧
      m'.regs rax = cc ∧ m'.regs rsp = m.mem (slot cc 2) + 16#64 ∧ m'.regs rbp = m'.mem (m.mem (slot cc 2)) ∧
      m'.regs rbx = m.mem (slot cc 4) ∧ m'.regs r12 = m.mem (slot cc 5) ∧ m'.regs r13 = m.mem (slot cc 6) ∧
      m'.regs r14 = m.mem (slot cc 7) ∧ m'.regs r15 = m.mem (slot cc 8) ∧
      (∀ j, j < n → m'.mem (start + BitVec.ofNat 64 (8 * (j + 1))) = m.mem (slot cc (9 + j))) ∧
      (∀ a, (∀ j, j < n → a ≠ start + BitVec.ofNat 64 (8 * (j + 1))) → a ≠ slot cc 3 → m'.mem a = m.mem a) := by
  have sl : ∀ i, i < n + 9 → (slot cc i).toNat = cc.toNat + 16 + 8 * i := by
    intro i hi; rw [slot, off (by omega)]; omega
  have sla : ∀ i, i < n + 9 → aligned (slot cc i) = true := by
    intro i hi; exact al (by rw [sl i hi]; omega)
  have slne : ∀ i j, i < n + 9 → j < n + 9 → i ≠ j → slot cc i ≠ slot cc j := by
    intro i j hi hj hij e
    have := congrArg BitVec.toNat e
    rw [sl i hi, sl j hj] at this; omega
  have slst : ∀ i j, i < n + 9 → j < n → slot cc i ≠ start + BitVec.ofNat 64 (8 * (j + 1)) := by
    intro i j hi hj e
    have := congrArg BitVec.toNat e
    rw [sl i hi, off (by omega)] at this; omega
  obtain ⟨B, hB⟩ : ∃ B, B = m.mem (slot cc 2) := ⟨_, rfl⟩
  rw [← hB] at fp fa ft ⊢
  have B8 : (B + 8#64).toNat = B.toNat + 8 := off (a := B) (x := 8) (by omega)
  have aB : aligned B = true := al fa
  have aB8 : aligned (B + 8#64) = true := al (by rw [B8]; omega)
  have n0 : 0 < n + 9 := by omega
  have n1 : 1 < n + 9 := by omega
  have n2 : 2 < n + 9 := by omega
  have n3 : 3 < n + 9 := by omega
  have n4 : 4 < n + 9 := by omega
  have n5 : 5 < n + 9 := by omega
  have n6 : 6 < n + 9 := by omega
  have n7 : 7 < n + 9 := by omega
  have n8 : 8 < n + 9 := by omega
  have n9 : ∀ j, j < n → 9 + j < n + 9 := by omega
  have n93 : ∀ j, 9 + j ≠ 3 := by omega
  have L9 : (slot cc 9).toNat + 8 * n < 2 ^ 64 ∧ (slot cc 9).toNat % 8 = 0 ∧
      ((slot cc 9).toNat + 8 * n ≤ start.toNat ∨ start.toNat + 8 * n < (slot cc 9).toNat) := by
    rw [slot, off (by omega)]; omega
  have S3 : slot cc 0 + BitVec.ofInt 64 0x18 = slot cc 3 := by simpa using slot_add cc 0 3
  have S4 : slot cc 0 + BitVec.ofInt 64 0x20 = slot cc 4 := by simpa using slot_add cc 0 4
  have S5 : slot cc 0 + BitVec.ofInt 64 0x28 = slot cc 5 := by simpa using slot_add cc 0 5
  have S6 : slot cc 0 + BitVec.ofInt 64 0x30 = slot cc 6 := by simpa using slot_add cc 0 6
  have S7 : slot cc 0 + BitVec.ofInt 64 0x38 = slot cc 7 := by simpa using slot_add cc 0 7
  have S8 : slot cc 0 + BitVec.ofInt 64 0x40 = slot cc 8 := by simpa using slot_add cc 0 8
  have S1 : slot cc 0 + BitVec.ofInt 64 8 = slot cc 1 := by simpa using slot_add cc 0 1
  have S2 : slot cc 0 + BitVec.ofInt 64 16 = slot cc 2 := by simpa using slot_add cc 0 2
  have S9 : slot cc 0 + BitVec.ofInt 64 0x48 = slot cc 9 := by simpa using slot_add cc 0 9
  have ok' := ok
  obtain ⟨n01, n02, n12, nr⟩ := ok'
  obtain ⟨p0, q0, t0, u0⟩ := nr o0 (by simp)
  obtain ⟨p1, q1, t1, u1⟩ := nr o1 (by simp)
  obtain ⟨p2, q2, t2, u2⟩ := nr o2 (by simp)
  -- the start
  obtain ⟨m1, hm1⟩ : ∃ m1, m1 = m.put (slot cc 3) cc := ⟨_, rfl⟩
  have mem1 : ∀ i, i < n + 9 → i ≠ 3 → m1.mem (slot cc i) = m.mem (slot cc i) := by
    intro i hi h3
    rw [hm1]
    show (if _ then _ else _) = _
    rw [if_neg (slne i 3 hi n3 h3)]
  have mem13 : m1.mem (slot cc 3) = cc := by
    rw [hm1]
    show (if _ then _ else _) = _
    rw [if_pos rfl]
  obtain ⟨ma, hma⟩ : ∃ ma : Mach, ma =
    { ((m1.set o0 (m1.mem (slot cc 1))).set o1 (m1.mem (slot cc 0))).set o2 (slot cc 0) with rip := 0 } := ⟨_, rfl⟩
  have ra2 : ma.regs o2 = slot cc 0 := by
    rw [hma]; show (if _ then _ else _) = _; rw [if_pos rfl]
  have ra1 : ma.regs o1 = start + BitVec.ofNat 64 (8 * n) := by
    rw [hma]; show (if _ then _ else if _ then _ else _) = _; rw [if_neg n12, if_pos rfl, mem1 0 n0 (by decide), s0]
  have ra0 : ma.regs o0 = start := by
    rw [hma]; show (if _ then _ else if _ then _ else if _ then _ else _) = _
    rw [if_neg n02, if_neg n01, if_pos rfl, mem1 1 n1 (by decide), s1]
  have mma : ma.mem = m1.mem := by rw [hma]; rfl
  have ripa : ma.rip = 0 := by rw [hma]
  obtain ⟨mb, hmb⟩ : ∃ mb : Mach, mb = { ma.set rsp start with rip := 1 } := ⟨_, rfl⟩
  have gb : Gets (yieldAsm o0 o1 o2) ma mb := by
    have := gets_ld (code := yieldAsm o0 o1 o2) (m := ma) (r := rsp) (b := o2) (d := 8) (by rw [ripa]; rfl)
      (by rw [ra2, S1]; exact sla 1 n1)
    rw [ra2, S1, mma, mem1 1 n1 (by decide), s1, ripa] at this
    rw [hmb]; exact this
  obtain ⟨mc, hmc⟩ : ∃ mc : Mach, mc = { mb.set rbp B with rip := 2 } := ⟨_, rfl⟩
  have rb2 : mb.regs o2 = slot cc 0 := by
    rw [hmb]; show (if _ then _ else _) = _; rw [if_neg t2, ra2]
  have gc : Gets (yieldAsm o0 o1 o2) mb mc := by
    have := gets_ld (code := yieldAsm o0 o1 o2) (m := mb) (r := rbp) (b := o2) (d := 16) (by rw [hmb]; rfl)
      (by rw [rb2, S2]; exact sla 2 n2)
    rw [rb2, S2, show mb.mem = m1.mem by rw [hmb, ← mma]; rfl, mem1 2 n2 (by decide), ← hB,
      show mb.rip = 1 by rw [hmb]] at this
    rw [hmc]; exact this
  have rc2 : mc.regs o2 = slot cc 0 := by
    rw [hmc]; show (if _ then _ else _) = _; rw [if_neg u2, rb2]
  obtain ⟨md, hmd⟩ : ∃ md : Mach, md = { mc.set rbx (slot cc 0) with rip := 3 } := ⟨_, rfl⟩
  have gd : Gets (yieldAsm o0 o1 o2) mc md := by
    refine gets_i (i := .mov (.reg rbx) (.reg o2)) (by rw [hmc]; rfl) ?_
    simp only [Mach.exec, Mach.get, rc2]
    rw [hmd, show mc.rip = 2 by rw [hmc]]
  obtain ⟨me, hme⟩ : ∃ me : Mach, me = { md.alu .add o2 (md.regs o2) (BitVec.ofInt 64 0x48) with rip := 4 } := ⟨_, rfl⟩
  have ge : Gets (yieldAsm o0 o1 o2) md me := by
    refine gets_i (i := .alui .add o2 0x48) (by rw [hmd]; rfl) ?_
    simp only [Mach.exec]
    rw [hme, show md.rip = 3 by rw [hmd]]
  have rd2 : md.regs o2 = slot cc 0 := by
    rw [hmd]; show (if _ then _ else _) = _; rw [if_neg q2, rc2]
  have re2 : me.regs o2 = slot cc 9 := by
    rw [hme]; show (if _ then _ else _) = _; rw [if_pos rfl, rd2, S9]
  have re : ∀ r, r ≠ o2 → me.regs r = if r = rbx then slot cc 0 else if r = rbp then B else if r = rsp then start
      else ma.regs r := by
    intro r hr
    rw [hme]; show (if _ then _ else _) = _; rw [if_neg hr, hmd]
    show (if _ then _ else mc.regs r) = _
    rw [hmc]
    show (if _ then _ else if _ then _ else mb.regs r) = _
    rw [hmb]; rfl
  have mme : me.mem = m1.mem := by
    rw [← mma, hme]; show md.mem = _; rw [hmd]; show mc.mem = _; rw [hmc]; show mb.mem = _; rw [hmb]; rfl
  have ripe : me.rip = 4 := by rw [hme]
  have L0 : Loop o0 o1 o2 me (slot cc 9) start n 0 me := by
    refine ⟨ripe, ?_, ?_, ?_, fun _ _ _ _ => rfl, fun j hj => absurd hj (Nat.not_lt_zero j), fun _ _ => rfl⟩
    · rw [re o0 n02, if_neg q0, if_neg u0, if_neg t0, ra0]; simp
    · rw [re o1 n12, if_neg q1, if_neg u1, if_neg t1, ra1]
    · rw [re2]; simp
  obtain ⟨ml, gl, L, ripl⟩ := loop ok L9.1 hs L9.2.1 as L9.2.2 hn L0
  have lreg : ∀ r, r ≠ rax → r ≠ o0 → r ≠ o2 → ml.regs r = me.regs r := L.regs
  have ldone : ∀ j, j < n → ml.mem (start + BitVec.ofNat 64 (8 * (j + 1))) = m.mem (slot cc (9 + j)) := by
    intro j hj
    have := L.done j hj
    rw [slot_add, mme, mem1 (9 + j) (n9 j hj) (n93 j)] at this
    exact this
  have lrest : ∀ a, (∀ j, j < n → a ≠ start + BitVec.ofNat 64 (8 * (j + 1))) → ml.mem a = m1.mem a := by
    intro a ha
    have := L.rest a ha
    rw [mme] at this
    exact this
  have lslot : ∀ i, i < n + 9 → ml.mem (slot cc i) = m1.mem (slot cc i) :=
    fun i hi => lrest _ (fun j hj => slst i j hi hj)
  have lbx : ml.regs rbx = slot cc 0 := by
    rw [lreg rbx (by decide) (Ne.symm q0) (Ne.symm q2), re rbx (Ne.symm q2), if_pos rfl]
  have lbp : ml.regs rbp = B := by
    rw [lreg rbp (by decide) (Ne.symm u0) (Ne.symm u2), re rbp (Ne.symm u2), if_neg (by decide), if_pos rfl]
  clear L L0 re
  -- the end
  have g := gb.trans (gc.trans (gd.trans (ge.trans gl)))
  clear gb gc gd ge gl
  obtain ⟨m2, hm2⟩ : ∃ m2 : Mach, m2 = { ml.set rax cc with rip := 11 } := ⟨_, rfl⟩
  have g2 : Gets (yieldAsm o0 o1 o2) ml m2 := by
    have := gets_ld (code := yieldAsm o0 o1 o2) (m := ml) (r := rax) (b := rbx) (d := 0x18) (by rw [ripl]; rfl)
      (by rw [lbx, S3]; exact sla 3 n3)
    rw [lbx, S3, lslot 3 n3, mem13, ripl] at this
    rw [hm2]; exact this
  have bx2 : m2.regs rbx = slot cc 0 := by rw [hm2]; exact lbx
  obtain ⟨m3, hm3⟩ : ∃ m3 : Mach, m3 = { m2.put (slot cc 3) 0 with rip := 12 } := ⟨_, rfl⟩
  have g3 : Gets (yieldAsm o0 o1 o2) m2 m3 := by
    apply Gets.one
    have hc : (yieldAsm o0 o1 o2)[m2.rip]? = some (.movq 0 rbx 0x18) := by rw [hm2]; rfl
    have ha : m2.ea (.mem rbx 0x18) = slot cc 3 := by
      show m2.regs rbx + _ = _
      rw [bx2, S3]
    simp only [step, hc, ha, sla 3 n3, if_true]
    rw [hm3, show m2.rip = 11 by rw [hm2]]
  have mem3 : ∀ a, m3.mem a = if a = slot cc 3 then 0 else ml.mem a := by
    intro a
    rw [hm3]
    show (if _ then _ else m2.mem a) = _
    rw [hm2]; rfl
  have bx3 : m3.regs rbx = slot cc 0 := by rw [hm3]; exact bx2
  have v3 : ∀ i, i < n + 9 → i ≠ 3 → m3.mem (slot cc i) = m.mem (slot cc i) := by
    intro i hi h3
    rw [mem3, if_neg (slne i 3 hi n3 h3), lslot i hi, mem1 i hi h3]
  have load : ∀ (x : Mach) (r i k : Nat) (d : Int), x.mem = m3.mem → x.regs rbx = slot cc 0 → x.rip = k →
      (yieldAsm o0 o1 o2)[k]? = some (.i (.mov (.reg r) (.mem rbx d))) → slot cc 0 + BitVec.ofInt 64 d = slot cc i →
      i < n + 9 → i ≠ 3 → Gets (yieldAsm o0 o1 o2) x { x.set r (m.mem (slot cc i)) with rip := k + 1 } := by
    intro x r i k d hx hb hr hc hd hi h3
    have := gets_ld (code := yieldAsm o0 o1 o2) (m := x) (r := r) (b := rbx) (d := d) (by rw [hr]; exact hc)
      (by rw [hb, hd]; exact sla i hi)
    rw [hb, hd, hx, v3 i hi h3, hr] at this
    exact this
  obtain ⟨m4, hm4⟩ : ∃ m4 : Mach, m4 = { m3.set r12 (m.mem (slot cc 5)) with rip := 13 } := ⟨_, rfl⟩
  have g4 : Gets (yieldAsm o0 o1 o2) m3 m4 := by
    rw [hm4]; exact load m3 r12 5 12 0x28 rfl bx3 (by rw [hm3]) rfl S5 n5 (by decide)
  obtain ⟨m5, hm5⟩ : ∃ m5 : Mach, m5 = { m4.set r13 (m.mem (slot cc 6)) with rip := 14 } := ⟨_, rfl⟩
  have g5 : Gets (yieldAsm o0 o1 o2) m4 m5 := by
    rw [hm5]; exact load m4 r13 6 13 0x30 (by rw [hm4]; rfl) (by rw [hm4]; exact bx3) (by rw [hm4]) rfl S6 n6 (by decide)
  obtain ⟨m6, hm6⟩ : ∃ m6 : Mach, m6 = { m5.set r14 (m.mem (slot cc 7)) with rip := 15 } := ⟨_, rfl⟩
  have g6 : Gets (yieldAsm o0 o1 o2) m5 m6 := by
    rw [hm6]; exact load m5 r14 7 14 0x38 (by rw [hm5, hm4]; rfl) (by rw [hm5, hm4]; exact bx3) (by rw [hm5]) rfl S7 n7
      (by decide)
  obtain ⟨m7, hm7⟩ : ∃ m7 : Mach, m7 = { m6.set r15 (m.mem (slot cc 8)) with rip := 16 } := ⟨_, rfl⟩
  have g7 : Gets (yieldAsm o0 o1 o2) m6 m7 := by
    rw [hm7]; exact load m6 r15 8 15 0x40 (by rw [hm6, hm5, hm4]; rfl) (by rw [hm6, hm5, hm4]; exact bx3) (by rw [hm6]) rfl S8
      n8 (by decide)
  obtain ⟨m8, hm8⟩ : ∃ m8 : Mach, m8 = { m7.set rbx (m.mem (slot cc 4)) with rip := 17 } := ⟨_, rfl⟩
  have g8 : Gets (yieldAsm o0 o1 o2) m7 m8 := by
    rw [hm8]; exact load m7 rbx 4 16 0x20 (by rw [hm7, hm6, hm5, hm4]; rfl) (by rw [hm7, hm6, hm5, hm4]; exact bx3)
      (by rw [hm7]) rfl S4 n4 (by decide)
  have bp8 : m8.regs rbp = B := by
    rw [hm8, hm7, hm6, hm5, hm4, hm3, hm2]; exact lbp
  have mem8 : m8.mem = m3.mem := by rw [hm8, hm7, hm6, hm5, hm4]; rfl
  obtain ⟨m9, hm9⟩ : ∃ m9 : Mach, m9 = { (m8.set rbp (m8.mem B)).set rsp (B + 8#64) with rip := 18 } := ⟨_, rfl⟩
  have g9 : Gets (yieldAsm o0 o1 o2) m8 m9 := by
    refine gets_i (i := .leave) (by rw [hm8]; rfl) ?_
    simp only [Mach.exec, bp8, aB, if_true]
    rw [hm9, show m8.rip = 17 by rw [hm8]]
  obtain ⟨j, hj⟩ := g.trans (g2.trans (g3.trans (g4.trans (g5.trans (g6.trans (g7.trans (g8.trans g9)))))))
  have sp9 : m9.regs rsp = B + 8#64 := by rw [hm9]; rfl
  have last : step (yieldAsm o0 o1 o2) m9 = .ret (m9.set rsp (B + 8#64 + 8#64)) (m9.mem (B + 8#64)) := by
    have hc : (yieldAsm o0 o1 o2)[m9.rip]? = some (.i .ret) := by rw [hm9]; rfl
    simp only [step, hc, Mach.exec, sp9, aB8, if_true]
  have mem9 : m9.mem = m3.mem := by rw [hm9]; exact mem8
  refine ⟨j + 1, m9.set rsp (B + 8#64 + 8#64), m9.mem (B + 8#64), ?_, rfl, ?_, ?_, ?_, ?_, ?_, ?_, ?_, ?_, ?_, ?_⟩
  · have hs0 : ¬(start + BitVec.ofNat 64 (8 * n) ≠ m.mem (slot cc 0)) := fun h => h s0.symm
    simp only [yield, hs0, if_false]
    rw [← hm1, ← hma, hj]
    simp only [steps, last]
  · show m9.regs rax = _
    rw [hm9, hm8, hm7, hm6, hm5, hm4, hm3, hm2]
    rfl
  · exact offs B 8 8
  · show m9.regs rbp = m9.mem B
    rw [mem9, hm9, ← mem8]
    rfl
  · rw [hm9, hm8]; rfl
  · rw [hm9, hm8, hm7, hm6, hm5, hm4]; rfl
  · rw [hm9, hm8, hm7, hm6, hm5]; rfl
  · rw [hm9, hm8, hm7, hm6]; rfl
  · rw [hm9, hm8, hm7]; rfl
  · intro i hi
    show m9.mem _ = _
    rw [mem9, mem3, if_neg (Ne.symm (slst 3 i n3 hi)), ldone i hi]
  · intro a ha h3
    show m9.mem _ = _
    rw [mem9, mem3, if_neg h3, lrest a ha, hm1]
    show (if _ then _ else _) = _
    rw [if_neg h3]


theorem put_regs (m : Mach) (a v : PN) : (m.put a v).regs = m.regs := rfl
theorem put_mem (m : Mach) (a v x : PN) : (m.put a v).mem x = if x = a then v else m.mem x := rfl

theorem copyWords_regs (m : Mach) (dst src : PN) (n : Nat) : (copyWords m dst src n).regs = m.regs := by
  induction n with
  | zero => rfl
  | succ n ih => exact ih

theorem copyWords_in {m : Mach} {dst src : PN} {n : Nat} (h : dst.toNat + 8 * n < 2 ^ 64) :
    ∀ j, j < n → (copyWords m dst src n).mem (dst + BitVec.ofNat 64 (8 * j)) = m.mem (src + BitVec.ofNat 64 (8 * j)) := by
  induction n with
  | zero => intro j hj; omega
  | succ n ih =>
    intro j hj
    show (if _ then _ else _) = _
    by_cases hjn : j = n
    · rw [if_pos (by rw [hjn]), hjn]
    · rw [if_neg, ih (by omega) j (by omega)]
      intro e
      have := congrArg BitVec.toNat e
      rw [off (by omega), off (by omega)] at this
      omega

theorem copyWords_out {m : Mach} {dst src : PN} {n : Nat} {a : PN} (h : ∀ j, j < n → a ≠ dst + BitVec.ofNat 64 (8 * j)) :
    (copyWords m dst src n).mem a = m.mem a := by
  induction n with
  | zero => rfl
  | succ n ih =>
    show (if _ then _ else _) = _
    rw [if_neg (h n (by omega)), ih (fun j hj => h j (by omega))]

theorem toInt_small {a : PN} (h : a.toNat < 2 ^ 63) : a.toInt = a.toNat := by
  rw [BitVec.toInt_eq_toNat_cond, if_pos (by omega)]

/-- What `here` saves, where. -/
structure Saved (m : Mach) (cstack cc : PN) (m1 : Mach) : Prop where
  regs : m1.regs = m.regs
  len : m1.mem (cc + 8#64) = BitVec.ofNat 64 (words m cstack + 3)
  s0 : m1.mem (slot cc 0) = cstack
  s1 : m1.mem (slot cc 1) = m.regs rsp
  s2 : m1.mem (slot cc 2) = m.regs rbp
  s4 : m1.mem (slot cc 4) = m.regs rbx
  s5 : m1.mem (slot cc 5) = m.regs r12
  s6 : m1.mem (slot cc 6) = m.regs r13
  s7 : m1.mem (slot cc 7) = m.regs r14
  s8 : m1.mem (slot cc 8) = m.regs r15
  stack : ∀ j, j + 1 < words m cstack → m1.mem (slot cc (9 + j)) = m.mem (m.regs rsp + BitVec.ofNat 64 (8 * (j + 1)))
  rest : ∀ a, ¬Within cc (words m cstack + 10) a → m1.mem a = m.mem a

theorem slot_toNat {cc : PN} {i k : Nat} (h : cc.toNat + 8 * k < 2 ^ 64) (hi : i + 2 ≤ k) :
    (slot cc i).toNat = cc.toNat + 16 + 8 * i := by
  rw [slot, off (by omega)]; omega

theorem callcc_saved {m : Mach} {cstack cc : PN} (F : Fits m cstack cc (words m cstack + 10)) :
    ∃ m1, callcc cstack cc m = some m1 ∧ Saved m cstack cc m1 := by
  obtain ⟨base, below, frame, ⟨a1, a2, a3, a4⟩, room, apart⟩ := F
  obtain ⟨n, hn⟩ : ∃ n, n = words m cstack := ⟨_, rfl⟩
  rw [← hn] at room apart
  have hn' : n = (cstack.toNat - (m.regs rsp).toNat) / 8 + 1 := hn
  have hd : depth cstack (m.regs rsp) = (n : Int) := by
    rw [depth, toInt_small (by omega), toInt_small (by omega)]
    omega
  have sl : ∀ i, i < n + 8 → (slot cc i).toNat = cc.toNat + 16 + 8 * i := fun i hi => slot_toNat room (by omega)
  have slne : ∀ i j, i < n + 8 → j < n + 8 → i ≠ j → slot cc i ≠ slot cc j := by
    intro i j hi hj hij e
    have := congrArg BitVec.toNat e
    rw [sl i hi, sl j hj] at this; omega
  have c8 : (cc + 8#64).toNat = cc.toNat + 8 := off (x := 8) (by omega)
  have sl8 : ∀ i, i < n + 8 → cc + 8#64 ≠ slot cc i := by
    intro i hi e
    have := congrArg BitVec.toNat e
    rw [sl i hi, c8] at this; omega
  have hns : ∀ i, i < 9 → i < n + 8 := by omega
  obtain ⟨mp, hmp⟩ : ∃ mp : Mach, mp = (((((((((m.put (cc + 8#64) (BitVec.ofInt 64 ((n : Int) + 3))).put (slot cc 0) cstack).put (slot cc 1)
    (m.regs rsp)).put (slot cc 2) (m.regs rbp)).put (slot cc 3) 0).put (slot cc 4) (m.regs rbx)).put (slot cc 5)
    (m.regs r12)).put (slot cc 6) (m.regs r13)).put (slot cc 7) (m.regs r14)).put (slot cc 8) (m.regs r15) := ⟨_, rfl⟩
  have mpm : ∀ a, mp.mem a = if a = slot cc 8 then m.regs r15 else if a = slot cc 7 then m.regs r14 else
      if a = slot cc 6 then m.regs r13 else if a = slot cc 5 then m.regs r12 else if a = slot cc 4 then m.regs rbx else
      if a = slot cc 3 then 0 else if a = slot cc 2 then m.regs rbp else if a = slot cc 1 then m.regs rsp else
      if a = slot cc 0 then cstack else if a = cc + 8#64 then BitVec.ofInt 64 ((n : Int) + 3) else m.mem a := by
    intro a; rw [hmp]; simp only [put_mem]
  have e : callcc cstack cc m = some (copyWords mp (slot cc 9) (m.regs rsp + 8#64) (n - 1)) := by
    have h1 : ¬((n : Int) < 1) := by omega
    have h2 : ((n : Int) - 1).toNat = n - 1 := by omega
    simp only [callcc, hd, h1, if_false, h2, put_regs]
    rw [hmp]
  have r9 : (slot cc 9).toNat + 8 * (n - 1) < 2 ^ 64 := by rw [slot, off (by omega)]; omega
  have out : ∀ a, (∀ j, j < n - 1 → a ≠ slot cc (9 + j)) →
      (copyWords mp (slot cc 9) (m.regs rsp + 8#64) (n - 1)).mem a = mp.mem a := by
    intro a ha
    apply copyWords_out
    intro j hj
    rw [slot_add]; exact ha j hj
  have low : ∀ i, i < 9 → (copyWords mp (slot cc 9) (m.regs rsp + 8#64) (n - 1)).mem (slot cc i) = mp.mem (slot cc i) := by
    intro i hi
    apply out
    intro j hj
    exact slne i (9 + j) (hns i hi) (by omega) (by omega)
  have ne9 : ∀ i j, i < 9 → j < 9 → i ≠ j → slot cc i ≠ slot cc j := fun i j hi hj => slne i j (hns i hi) (hns j hj)
  refine ⟨_, e, ?_, ?_, ?_, ?_, ?_, ?_, ?_, ?_, ?_, ?_, ?_, ?_⟩
  · rw [copyWords_regs, hmp]; simp only [put_regs]
  · rw [out _ (fun j hj => sl8 _ (by omega)), mpm]
    rw [if_neg (sl8 8 (by omega)), if_neg (sl8 7 (by omega)), if_neg (sl8 6 (by omega)), if_neg (sl8 5 (by omega)),
      if_neg (sl8 4 (by omega)), if_neg (sl8 3 (by omega)), if_neg (sl8 2 (by omega)), if_neg (sl8 1 (by omega)),
      if_neg (sl8 0 (by omega)), if_pos rfl, ← hn]
    rw [show ((n : Int) + 3) = ((n + 3 : Nat) : Int) by omega, BitVec.ofInt_natCast]
  · rw [low 0 (by omega), mpm]
    simp only [ne9 0 8 (by decide) (by decide) (by decide), ne9 0 7 (by decide) (by decide) (by decide),
      ne9 0 6 (by decide) (by decide) (by decide), ne9 0 5 (by decide) (by decide) (by decide),
      ne9 0 4 (by decide) (by decide) (by decide), ne9 0 3 (by decide) (by decide) (by decide),
      ne9 0 2 (by decide) (by decide) (by decide), ne9 0 1 (by decide) (by decide) (by decide), if_false, if_true]
  · rw [low 1 (by omega), mpm]
    simp only [ne9 1 8 (by decide) (by decide) (by decide), ne9 1 7 (by decide) (by decide) (by decide),
      ne9 1 6 (by decide) (by decide) (by decide), ne9 1 5 (by decide) (by decide) (by decide),
      ne9 1 4 (by decide) (by decide) (by decide), ne9 1 3 (by decide) (by decide) (by decide),
      ne9 1 2 (by decide) (by decide) (by decide), if_false, if_true]
  · rw [low 2 (by omega), mpm]
    simp only [ne9 2 8 (by decide) (by decide) (by decide), ne9 2 7 (by decide) (by decide) (by decide),
      ne9 2 6 (by decide) (by decide) (by decide), ne9 2 5 (by decide) (by decide) (by decide),
      ne9 2 4 (by decide) (by decide) (by decide), ne9 2 3 (by decide) (by decide) (by decide), if_false, if_true]
  · rw [low 4 (by omega), mpm]
    simp only [ne9 4 8 (by decide) (by decide) (by decide), ne9 4 7 (by decide) (by decide) (by decide),
      ne9 4 6 (by decide) (by decide) (by decide), ne9 4 5 (by decide) (by decide) (by decide), if_false, if_true]
  · rw [low 5 (by omega), mpm]
    simp only [ne9 5 8 (by decide) (by decide) (by decide), ne9 5 7 (by decide) (by decide) (by decide),
      ne9 5 6 (by decide) (by decide) (by decide), if_false, if_true]
  · rw [low 6 (by omega), mpm]
    simp only [ne9 6 8 (by decide) (by decide) (by decide), ne9 6 7 (by decide) (by decide) (by decide), if_false, if_true]
  · rw [low 7 (by omega), mpm]
    simp only [ne9 7 8 (by decide) (by decide) (by decide), if_false, if_true]
  · rw [low 8 (by omega), mpm]
    simp only [if_true]
  · intro j hj
    rw [← slot_add, copyWords_in r9 j (by omega)]
    have e8 : m.regs rsp + 8#64 + BitVec.ofNat 64 (8 * j) = m.regs rsp + BitVec.ofNat 64 (8 * (j + 1)) := by
      rw [show (8#64 : PN) = BitVec.ofNat 64 8 from rfl, offs]
      congr 2; omega
    rw [e8, mpm]
    have st : (m.regs rsp + BitVec.ofNat 64 (8 * (j + 1))).toNat = (m.regs rsp).toNat + 8 * (j + 1) := off (by omega)
    have ne : ∀ i, i < n + 8 → m.regs rsp + BitVec.ofNat 64 (8 * (j + 1)) ≠ slot cc i := by
      intro i hi e
      have := congrArg BitVec.toNat e
      rw [sl i hi, st] at this
      omega
    have ne' : m.regs rsp + BitVec.ofNat 64 (8 * (j + 1)) ≠ cc + 8#64 := by
      intro e
      have := congrArg BitVec.toNat e
      rw [c8, st] at this
      omega
    rw [if_neg (ne 8 (by omega)), if_neg (ne 7 (by omega)), if_neg (ne 6 (by omega)), if_neg (ne 5 (by omega)),
      if_neg (ne 4 (by omega)), if_neg (ne 3 (by omega)), if_neg (ne 2 (by omega)), if_neg (ne 1 (by omega)),
      if_neg (ne 0 (by omega)), if_neg ne']
  · intro a ha
    have ne : ∀ i, i < n + 8 → a ≠ slot cc i := by
      rintro i hi rfl
      apply ha
      rw [Within, ← hn, sl i hi]; omega
    have ne' : a ≠ cc + 8#64 := by
      rintro rfl
      apply ha
      rw [Within, ← hn, c8]; omega
    rw [out a (fun j hj => ne _ (by omega)), mpm,
      if_neg (ne 8 (by omega)), if_neg (ne 7 (by omega)), if_neg (ne 6 (by omega)), if_neg (ne 5 (by omega)),
      if_neg (ne 4 (by omega)), if_neg (ne 3 (by omega)), if_neg (ne 2 (by omega)), if_neg (ne 1 (by omega)),
      if_neg (ne 0 (by omega)), if_neg ne']

end Potion.Cont
