import Verif.Proof.X86
/-!
One lemma for each kind of machine instruction the generator uses.
-/
namespace Potion.Jit
open Potion Potion.X86

/-- Length of a load or store of a slot. -/
def ldLen (x : Int) : Nat := if x > 15 then 7 else 4

theorem movRbp_length (op x) : (movRbp op x).length = ldLen x := by
  unfold movRbp ldLen; simp only [List.length_cons, movEbp_length]; split <;> rfl
theorem movRbpDx_length (op x) : (movRbpDx op x).length = ldLen x := by
  unfold movRbpDx ldLen; simp only [List.length_cons, movEbp_length]; split <;> rfl
theorem movq_length (r v) : (movq r v).length = 10 + ldLen r := by
  unfold movq ldLen; simp only [List.length_append, List.length_cons, List.length_nil, asmN_length, movEbp_length]
  split <;> rfl
theorem callC_length (f) : (callC f).length = 12 := by
  unfold callC; simp [asmN_length]
theorem argReg_length (op x n) : (argReg op x n).length = ldLen x := by
  unfold argReg ldLen; split <;> simp only [List.length_cons, movEbp_length] <;> split <;> rfl

theorem argO_length (x n) : (argO x n).length = ldLen x := argReg_length _ _ _

theorem ldLen_cases (a : Int) : ldLen a = 4 ∨ ldLen a = 7 := by unfold ldLen; split <;> simp

/-- Compute lengths of code. -/
macro "len" : tactic => `(tactic| (simp only [List.length_append, List.length_cons, List.length_nil, movRbp_length,
  movRbpDx_length, movq_length, callC_length, argO_length, asmI_length, asmN_length] <;> omega))

variable {ext : Ext} {code : List Byte}

theorem step_ld {m : Mach} (g : Nat) (hg : g < 8) (x : Int) (hx : 0 ≤ x ∧ x < 2^20)
    (h : At code m.rip (0x48#8 :: 0x8B#8 :: movEbp (BitVec.ofNat 8 (0x45 + 8 * g)) x))
    (ha : aligned (slot (m.regs 5) x) = true) :
    m.step ext code = .run { m.set g (m.mem (slot (m.regs 5) x)) with rip := m.rip + ldLen x } := by
  rw [step_bytes h (decode_ld g hg x hx)]
  have : (0x48#8 :: 0x8B#8 :: movEbp (BitVec.ofNat 8 (0x45 + 8 * g)) x).length = ldLen x := by
    unfold ldLen; simp only [List.length_cons, movEbp_length]; split <;> rfl
  rw [this]
  show (match (if aligned (slot (m.regs 5) x) then some (m.mem (slot (m.regs 5) x)) else none) with
    | none => Out.fault
    | some v => .run { m.set g v with rip := m.rip + ldLen x }) = _
  rw [if_pos ha]

theorem step_st {m : Mach} (g : Nat) (hg : g < 8) (x : Int) (hx : 0 ≤ x ∧ x < 2^20)
    (h : At code m.rip (0x48#8 :: 0x89#8 :: movEbp (BitVec.ofNat 8 (0x45 + 8 * g)) x))
    (ha : aligned (slot (m.regs 5) x) = true) :
    m.step ext code = .run { m.put (slot (m.regs 5) x) (m.regs g) with rip := m.rip + ldLen x } := by
  rw [step_bytes h (decode_st g hg x hx)]
  have : (0x48#8 :: 0x89#8 :: movEbp (BitVec.ofNat 8 (0x45 + 8 * g)) x).length = ldLen x := by
    unfold ldLen; simp only [List.length_cons, movEbp_length]; split <;> rfl
  rw [this]
  show (if aligned (slot (m.regs 5) x) then
    Out.run { m.put (slot (m.regs 5) x) (m.regs g) with rip := m.rip + ldLen x } else .fault) = _
  rw [if_pos ha]

theorem step_st4c {m : Mach} (g : Nat) (hg : g < 8) (x : Int) (hx : 0 ≤ x ∧ x < 2^20)
    (h : At code m.rip (0x4c#8 :: 0x89#8 :: movEbp (BitVec.ofNat 8 (0x45 + 8 * g)) x))
    (ha : aligned (slot (m.regs 5) x) = true) :
    m.step ext code = .run { m.put (slot (m.regs 5) x) (m.regs (g + 8)) with rip := m.rip + ldLen x } := by
  rw [step_bytes h (decode_st4c g hg x hx)]
  have : (0x4c#8 :: 0x89#8 :: movEbp (BitVec.ofNat 8 (0x45 + 8 * g)) x).length = ldLen x := by
    unfold ldLen; simp only [List.length_cons, movEbp_length]; split <;> rfl
  rw [this]
  show (if aligned (slot (m.regs 5) x) then
    Out.run { m.put (slot (m.regs 5) x) (m.regs (g + 8)) with rip := m.rip + ldLen x } else .fault) = _
  rw [if_pos ha]

theorem step_movi {m : Mach} (v : PN) (h : At code m.rip ([0x48#8, 0xB8#8] ++ asmN v)) :
    m.step ext code = .run { m.set 0 v with rip := m.rip + 10 } := by
  rw [step_bytes h (decode_movi v)]
  have : ([0x48#8, 0xB8#8] ++ asmN v).length = 10 := by simp [asmN_length]
  rw [this]; rfl

theorem goto_nat {m : Mach} (n d : Nat) : m.goto n d = .run { m with rip := n + d } := by
  unfold Mach.goto
  rw [if_pos (by omega)]
  congr 2

theorem goto_to {m : Mach} (n p : Nat) (d : Int) (h : (p : Int) = n + d) : m.goto n d = .run { m with rip := p } := by
  unfold Mach.goto
  rw [← h, if_pos (by omega)]
  congr 2

/-- A short jump over `n < 128` bytes. -/
theorem toInt_small (n : Nat) (h : n < 128) : (BitVec.ofNat 8 n).toInt = n := by
  rw [BitVec.toInt_ofNat']; simp only [Int.bmod]; omega

theorem over_toInt (b : List Byte) (h : b.length < 128) : (over b).toInt = b.length := toInt_small _ h

theorem step_jmp8 {m : Mach} (d : Byte) (n : Nat) (hd : d.toInt = n) (h : At code m.rip [0xEB#8, d]) :
    m.step ext code = .run { m with rip := m.rip + 2 + n } := by
  rw [step_bytes h (decode_jmp8 d)]
  show m.goto (m.rip + 2) d.toInt = _
  rw [hd, goto_nat]

theorem step_jcc_no {m : Mach} (o d : Byte) (c : Cc) (hd : ∀ t, decode ([o, d] ++ t) = some (.jcc c d.toInt, 2))
    (h : At code m.rip [o, d]) (hc : m.cc c = some false) : m.step ext code = .run { m with rip := m.rip + 2 } := by
  rw [step_bytes h hd]
  simp only [Mach.exec, hc]; rfl

theorem step_jcc_yes {m : Mach} (o d : Byte) (c : Cc) (hd : ∀ t, decode ([o, d] ++ t) = some (.jcc c d.toInt, 2))
    (n : Nat) (hn : d.toInt = n) (h : At code m.rip [o, d]) (hc : m.cc c = some true) :
    m.step ext code = .run { m with rip := m.rip + 2 + n } := by
  rw [step_bytes h hd]
  simp only [Mach.exec, hc]
  show m.goto (m.rip + 2) d.toInt = _
  rw [hn, goto_nat]

theorem step_jmp32 {m : Mach} (p : Nat) (d : Int) (hd : -(2^31) ≤ d ∧ d < 2^31) (h : At code m.rip ([0xE9#8] ++ asmI d))
    (hp : (p : Int) = m.rip + 5 + d) : m.step ext code = .run { m with rip := p } := by
  rw [step_bytes h (decode_jmp32 d hd)]
  have : ([0xE9#8] ++ asmI d).length = 5 := by simp [asmI_length]
  rw [this]
  exact goto_to _ _ _ (by omega)

/-- Any instruction with known bytes. -/
theorem step_run {m m' : Mach} (bs : List Byte) (i : Instr) (hd : ∀ t, decode (bs ++ t) = some (i, bs.length))
    (h : At code m.rip bs) (he : m.exec ext (m.rip + bs.length) i = .run m') : m.step ext code = .run m' := by
  rw [step_bytes h hd, he]

theorem At.cast {p q bs} (h : At code p bs) (e : p = q) : At code q bs := e ▸ h

theorem test1 (w : PN) : ((w.setWidth 8 &&& 0x01#8) == 0#8) = !isInt w := by
  have h : (w.setWidth 8 &&& 0x01#8) = (w &&& 1#64).setWidth 8 := by
    rw [BitVec.setWidth_and]; rfl
  have h2 : (w &&& 1#64) = 0#64 ∨ (w &&& 1#64) = 1#64 := by
    have : (w &&& 1#64).toNat < 2 := by
      rw [BitVec.toNat_and]
      exact Nat.lt_of_le_of_lt Nat.and_le_right (by decide)
    rcases (by omega : (w &&& 1#64).toNat = 0 ∨ (w &&& 1#64).toNat = 1) with h | h
    · exact .inl (BitVec.eq_of_toNat_eq h)
    · exact .inr (BitVec.eq_of_toNat_eq h)
  unfold isInt
  rw [h]
  rcases h2 with h | h <;> rw [h] <;> rfl

/-- The machine with another instruction pointer. -/
def at_ (c : Mach) (p : Nat) : Mach := { c with rip := p }

/-- Some number of instructions leads from `m` to a state with `Q`. -/
def Reach (ext : Ext) (code : List Byte) (m : Mach) (Q : Mach → Prop) : Prop := ∃ k m', Run ext code k m m' ∧ Q m'

theorem Reach.done {m Q} (h : Q m) : Reach ext code m Q := ⟨0, m, .refl m, h⟩
theorem Reach.step {m m1 Q} (s : m.step ext code = .run m1) (h : Reach ext code m1 Q) : Reach ext code m Q := by
  obtain ⟨k, m', r, q⟩ := h
  exact ⟨k + 1, m', .cons s r, q⟩
theorem Reach.bind {m Q Q'} (h : Reach ext code m Q) (h' : ∀ m1, Q m1 → Reach ext code m1 Q') : Reach ext code m Q' := by
  obtain ⟨k, m1, r, q⟩ := h
  obtain ⟨j, m2, r2, q2⟩ := h' m1 q
  exact ⟨k + j, m2, r.trans r2, q2⟩
theorem Reach.mono {m Q Q'} (h : Reach ext code m Q) (h' : ∀ m1, Q m1 → Q' m1) : Reach ext code m Q' := by
  obtain ⟨k, m1, r, q⟩ := h
  exact ⟨k, m1, r, h' _ q⟩

/-- At least one instruction leads from `m` to a state with `Q`. -/
def Reach1 (ext : Ext) (code : List Byte) (m : Mach) (Q : Mach → Prop) : Prop := ∃ k m', Run ext code (k + 1) m m' ∧ Q m'

theorem Reach1.step {m m1 Q} (s : m.step ext code = .run m1) (h : Reach ext code m1 Q) : Reach1 ext code m Q := by
  obtain ⟨k, m', r, q⟩ := h
  exact ⟨k, m', .cons s r, q⟩

section
variable {c : Mach} {p : Nat} {Q : Mach → Prop}

theorem R1_ld (g : Nat) (hg : g < 8) (x : Int) (hx : 0 ≤ x ∧ x < 2^20)
    (h : At code p (0x48#8 :: 0x8B#8 :: movEbp (BitVec.ofNat 8 (0x45 + 8 * g)) x))
    (ha : aligned (slot (c.regs 5) x) = true)
    (k : Reach ext code (at_ (c.set g (c.mem (slot (c.regs 5) x))) (p + ldLen x)) Q) : Reach1 ext code (at_ c p) Q :=
  .step (step_ld (m := at_ c p) g hg x hx h ha) k

theorem R1_jmp32 (q : Nat) (d : Int) (hd : -(2^31) ≤ d ∧ d < 2^31) (h : At code p ([0xE9#8] ++ asmI d))
    (hp : (q : Int) = p + 5 + d) (k : Reach ext code (at_ c q) Q) : Reach1 ext code (at_ c p) Q :=
  .step (step_jmp32 (m := at_ c p) q d hd h hp) k

theorem R_ld (g : Nat) (hg : g < 8) (x : Int) (hx : 0 ≤ x ∧ x < 2^20)
    (h : At code p (0x48#8 :: 0x8B#8 :: movEbp (BitVec.ofNat 8 (0x45 + 8 * g)) x))
    (ha : aligned (slot (c.regs 5) x) = true)
    (k : Reach ext code (at_ (c.set g (c.mem (slot (c.regs 5) x))) (p + ldLen x)) Q) : Reach ext code (at_ c p) Q :=
  .step (step_ld (m := at_ c p) g hg x hx h ha) k

theorem R_st (g : Nat) (hg : g < 8) (x : Int) (hx : 0 ≤ x ∧ x < 2^20)
    (h : At code p (0x48#8 :: 0x89#8 :: movEbp (BitVec.ofNat 8 (0x45 + 8 * g)) x))
    (ha : aligned (slot (c.regs 5) x) = true)
    (k : Reach ext code (at_ (c.put (slot (c.regs 5) x) (c.regs g)) (p + ldLen x)) Q) : Reach ext code (at_ c p) Q :=
  .step (step_st (m := at_ c p) g hg x hx h ha) k

theorem R_st4c (g : Nat) (hg : g < 8) (x : Int) (hx : 0 ≤ x ∧ x < 2^20)
    (h : At code p (0x4c#8 :: 0x89#8 :: movEbp (BitVec.ofNat 8 (0x45 + 8 * g)) x))
    (ha : aligned (slot (c.regs 5) x) = true)
    (k : Reach ext code (at_ (c.put (slot (c.regs 5) x) (c.regs (g + 8))) (p + ldLen x)) Q) : Reach ext code (at_ c p) Q :=
  .step (step_st4c (m := at_ c p) g hg x hx h ha) k

theorem R_movi (v : PN) (h : At code p ([0x48#8, 0xB8#8] ++ asmN v))
    (k : Reach ext code (at_ (c.set 0 v) (p + 10)) Q) : Reach ext code (at_ c p) Q :=
  .step (step_movi (m := at_ c p) v h) k

theorem R_cast (q : Nat) (e : p = q) (k : Reach ext code (at_ c q) Q) : Reach ext code (at_ c p) Q := e ▸ k

theorem R_jmp8 (q n : Nat) (d : Byte) (h : At code p [0xEB#8, d]) (hn : d.toInt = n) (hq : q = p + 2 + n)
    (k : Reach ext code (at_ c q) Q) : Reach ext code (at_ c p) Q :=
  .step (step_jmp8 (m := at_ c p) d n hn h) (by rw [hq] at k; exact k)

theorem R_no (o d : Byte) (cc : Cc) (hd : ∀ t, decode ([o, d] ++ t) = some (.jcc cc d.toInt, 2))
    (h : At code p [o, d]) (hc : c.cc cc = some false)
    (k : Reach ext code (at_ c (p + 2)) Q) : Reach ext code (at_ c p) Q :=
  .step (step_jcc_no (m := at_ c p) o d cc hd h (by rw [← hc]; cases cc <;> rfl)) k

theorem R_yes (q n : Nat) (o d : Byte) (cc : Cc) (hd : ∀ t, decode ([o, d] ++ t) = some (.jcc cc d.toInt, 2))
    (h : At code p [o, d]) (hn : d.toInt = n) (hq : q = p + 2 + n) (hc : c.cc cc = some true)
    (k : Reach ext code (at_ c q) Q) : Reach ext code (at_ c p) Q :=
  .step (step_jcc_yes (m := at_ c p) o d cc hd n hn h (by rw [← hc]; cases cc <;> rfl)) (by rw [hq] at k; exact k)

theorem R_jmp32 (q : Nat) (d : Int) (hd : -(2^31) ≤ d ∧ d < 2^31) (h : At code p ([0xE9#8] ++ asmI d))
    (hp : (q : Int) = p + 5 + d) (k : Reach ext code (at_ c q) Q) : Reach ext code (at_ c p) Q :=
  .step (step_jmp32 (m := at_ c p) q d hd h hp) k

/-- Any other instruction with known bytes. -/
theorem R_bytes (c' : Mach) (bs : List Byte) (i : Instr) (hd : ∀ t, decode (bs ++ t) = some (i, bs.length)) (h : At code p bs)
    (he : (at_ c p).exec ext (p + bs.length) i = .run (at_ c' (p + bs.length)))
    (k : Reach ext code (at_ c' (p + bs.length)) Q) : Reach ext code (at_ c p) Q :=
  .step (step_run (m := at_ c p) bs i hd h he) k

/-- A call of a C function. -/
theorem R_call (c' : Mach) (h : At code p [0xFF#8, 0xD0#8]) (he : ext (c.regs 0) (at_ c p) = some c')
    (k : Reach ext code (at_ c' (p + 2)) Q) : Reach ext code (at_ c p) Q := by
  refine .step (step_run (m := at_ c p) _ (.call 0) (fun _ => rfl) h (m' := at_ c' (p + 2)) ?_) k
  simp only [Mach.exec]
  show (match ext (c.regs 0) (at_ c p) with
    | some m' => Out.run { m' with rip := p + 2 }
    | none => .fault) = _
  rw [he]; rfl

end

end Potion.Jit
