import Verif.Proof.Bytes
import Verif.Proof.Word
import Verif.Spec.Word
import Verif.Model.Op
/-! # C22, C24, C37, C46: byte buffers and instruction words -/
namespace Potion.Props
open Potion Bytes Spec

/-! ## C22 Bytes -/

/-- What a history of appends should leave in the buffer. -/
def concatAll (l : List (BitVec 8)) : List Bytes.Op → List (BitVec 8)
  | [] => l
  | .append s :: ops => concatAll (l ++ s) ops
  | .appendSelf :: ops => concatAll (l ++ l) ops
  | .printf s :: ops => concatAll (l ++ s) ops

theorem concatAll_length_le (l : List (BitVec 8)) (ops : List Bytes.Op) : l.length ≤ (concatAll l ops).length := by
  induction ops generalizing l with
  | nil => exact Nat.le_refl _
  | cons op ops ih =>
    cases op <;> (unfold concatAll; refine Nat.le_trans ?_ (ih _); simp)

/-- C22: create a Bytes object from any text, then append strings, formatted text or the buffer itself in any order
(whatever the contents of the memory blocks allocated on the way): no write leaves the allocation, and in the end the
buffer holds the concatenation of everything appended, followed by a NUL inside its block; `length` is its length.
Assumes less than 2 GiB in total (the sizes are 32-bit). -/
theorem C22_append (s0 : List (BitVec 8)) (j0 : Nat → BitVec 8) (ops : List (Bytes.Op × (Nat → BitVec 8)))
    (hn : (concatAll s0 (ops.map (·.1))).length < 2^31) :
    ∃ b0 b, byteStr2 j0 s0 = some b0 ∧ run b0 ops = some b ∧
      b.mem.take b.len = concatAll s0 (ops.map (·.1)) ∧ b.len = (concatAll s0 (ops.map (·.1))).length ∧
      b.mem[b.len]? = some 0#8 := by
  have h0 : s0.length < 2^31 := by have := concatAll_length_le s0 (ops.map (·.1)); omega
  obtain ⟨b0, hb0, hold⟩ := byteStr2_spec j0 s0 h0
  suffices key : ∀ (ops : List (Bytes.Op × (Nat → BitVec 8))) (l : List (BitVec 8)) (b : Buf), Holds b l →
      (concatAll l (ops.map (·.1))).length < 2^31 → ∃ b', run b ops = some b' ∧ Holds b' (concatAll l (ops.map (·.1))) by
    obtain ⟨b', h1, h2, h3, h4, h5⟩ := key ops s0 b0 hold hn
    exact ⟨b0, b', hb0, h1, h4, h2, h5⟩
  intro ops
  induction ops with
  | nil => intro l b hb _; exact ⟨b, rfl, hb⟩
  | cons o ops ih =>
    intro l b hb hlt
    obtain ⟨op, j⟩ := o
    have hle := concatAll_length_le
    cases op with
    | append s =>
      simp only [List.map_cons, concatAll] at hlt ⊢
      have := hle (l ++ s) (ops.map (·.1))
      obtain ⟨b1, e1, e2⟩ := append_spec hb j s (by simp at this; omega)
      obtain ⟨b2, e3, e4⟩ := ih _ _ e2 hlt
      exact ⟨b2, by simp only [run, step, e1, e3], e4⟩
    | appendSelf =>
      simp only [List.map_cons, concatAll] at hlt ⊢
      have := hle (l ++ l) (ops.map (·.1))
      obtain ⟨b1, e1, e2⟩ := appendSelf_spec hb j (by simp at this; omega)
      obtain ⟨b2, e3, e4⟩ := ih _ _ e2 hlt
      exact ⟨b2, by simp only [run, step, e1, e3], e4⟩
    | printf s =>
      simp only [List.map_cons, concatAll] at hlt ⊢
      have := hle (l ++ s) (ops.map (·.1))
      obtain ⟨b1, e1, e2⟩ := printf_spec hb j s (by simp at this; omega)
      obtain ⟨b2, e3, e4⟩ := ih _ _ e2 hlt
      exact ⟨b2, by simp only [run, step, e1, e3], e4⟩

example : concatAll [0x61#8] [.append [0x62#8], .appendSelf, .printf [0x31#8]] = [0x61, 0x62, 0x61, 0x62, 0x31] ∧
    (concatAll [0x61#8] [.append [0x62#8], .appendSelf, .printf [0x31#8]]).length < 2^31 := by decide

/-! ## C46 reading Bytes -/

/-- C46: `b(i)` is the i-th byte for `0 ≤ i < length` and nil for every other index, and `each` passes all bytes in
order to the block. -/
theorem C46_read (b : Buf) (l : List (BitVec 8)) (h1 : b.len = l.length) (h2 : b.mem.take b.len = l) (i : Int) :
    bytesAt b i = (if 0 ≤ i then l[i.toNat]? else none) ∧ each b = l.map some := by
  have hmem : ∀ k, k < b.len → b.mem[k]? = l[k]? := by
    intro k hk
    rw [← h2, List.getElem?_take]; simp [hk]
  refine ⟨?_, ?_⟩
  · unfold bytesAt
    by_cases h : 0 ≤ i
    · rw [if_pos h]
      by_cases h' : i ≥ b.len
      · rw [if_pos (Or.inr h')]
        rw [List.getElem?_eq_none (by omega)]
      · rw [if_neg (by omega), hmem _ (by omega)]
    · rw [if_neg h, if_pos (Or.inl (by omega))]
  · unfold each
    apply List.ext_getElem?
    intro k
    by_cases hk : k < b.len
    · rw [List.getElem?_map, List.getElem?_range hk, List.getElem?_map]
      simp only [Option.map_some]
      rw [hmem k hk]
      rw [List.getElem?_eq_getElem (by omega)]; rfl
    · rw [List.getElem?_eq_none (by simp; omega), List.getElem?_eq_none (by simp; omega)]

/-- C46 (refuted): `clone` of a Bytes object has the right length but does not copy the contents. -/
theorem C46_clone_refuted : ∃ (b : Buf), byteStr2 (fun _ => 0) [0x61#8] = some b ∧
    (clone b (fun _ => 0)).len = 1 ∧ bytesAt b 0 = some 0x61 ∧ bytesAt (clone b (fun _ => 0)) 0 = some 0 := by
  refine ⟨_, rfl, by decide, by decide, by decide⟩

/-! ## C37 Instruction buffers -/

/-- Something emitted into an assembler buffer. -/
inductive Emit
  | write (s : List (BitVec 8))      -- potion_asm_write
  | word (v : BitVec 64) (n : Nat)   -- potion_asm_put of n bytes
  | op (w : BitVec 32)               -- potion_asm_op

/-- Perform one emission. -/
def Emit.run (b : Buf) (junk : Nat → BitVec 8) : Emit → Option Buf
  | .write s => asmWrite b junk s
  | .word v n => asmPut b junk v n
  | .op w => Ops.asmOp b junk w

/-- The bytes an emission stands for: little-endian words. -/
def Emit.bytes : Emit → List (BitVec 8)
  | .write s => s
  | .word v n => (List.range n).map fun k => BitVec.ofNat 8 (v.toNat / 256 ^ k)
  | .op w => (List.range 4).map fun k => BitVec.ofNat 8 (w.toNat / 256 ^ k)

/-- A sequence of emissions. -/
def emitAll (b : Buf) : List (Emit × (Nat → BitVec 8)) → Option Buf
  | [] => some b
  | (e, j) :: es => match e.run b j with
    | none => none
    | some b => emitAll b es

theorem leBytes_eq : ∀ n v, leBytes n v = (List.range n).map fun k => BitVec.ofNat 8 (v / 256 ^ k)
  | 0, _ => rfl
  | n+1, v => by
    rw [leBytes, leBytes_eq n, List.range_succ_eq_map, List.map_cons, List.map_map]
    congr 1
    · simp
    · apply List.map_congr_left
      intro k _
      simp only [Function.comp]
      rw [Nat.div_div_eq_div_mul, Nat.pow_succ, Nat.mul_comm]

/-- C37: any sequence of emissions (raw bytes, 1/2/4/8-byte words, instructions) into a fresh buffer stays inside the
buffer's block and leaves exactly the emitted bytes, in order, whatever memory is allocated on the way. -/
theorem C37_emit (j0 : Nat → BitVec 8) (es : List (Emit × (Nat → BitVec 8)))
    (hw : ∀ e ∈ es, ∀ v n, e.1 = .word v n → n = 1 ∨ n = 2 ∨ n = 4 ∨ n = 8) :
    ∃ b, emitAll (asmNew j0) es = some b ∧ b.len ≤ b.mem.length ∧ b.mem.take b.len = (es.map fun e => e.1.bytes).flatten := by
  suffices key : ∀ (es : List (Emit × (Nat → BitVec 8))) (b : Buf), b.len ≤ b.mem.length →
      (∀ e ∈ es, ∀ v n, e.1 = .word v n → n = 1 ∨ n = 2 ∨ n = 4 ∨ n = 8) →
      ∃ b', emitAll b es = some b' ∧ b'.len ≤ b'.mem.length ∧
        b'.mem.take b'.len = b.mem.take b.len ++ (es.map fun e => e.1.bytes).flatten by
    have := key es (asmNew j0) (by simp [asmNew]) hw
    simpa [asmNew] using this
  intro es
  induction es with
  | nil => intro b hb _; exact ⟨b, rfl, hb, by simp⟩
  | cons e es ih =>
    intro b hb hw
    obtain ⟨e, j⟩ := e
    have step : ∃ b1, e.run b j = some b1 ∧ b1.len ≤ b1.mem.length ∧ b1.mem.take b1.len = b.mem.take b.len ++ e.bytes := by
      cases e with
      | write s =>
        obtain ⟨b1, m, h1, h2, h3, h4, h5⟩ := emit_spec b j s hb
        refine ⟨{ mem := m, len := b1.len + s.length }, ?_, ?_, ?_⟩
        · simp only [Emit.run, asmWrite, h1, h3]
        · simp only [h2]; exact h4
        · simp only [h2]; exact h5
      | word v n =>
        have hn := hw (.word v n, j) (by simp) v n rfl
        have hl := leBytes_length n v.toNat
        obtain ⟨b1, m, h1, h2, h3, h4, h5⟩ := emit_spec b j (leBytes n v.toNat) hb
        rw [hl] at h1 h4 h5
        refine ⟨{ mem := m, len := b1.len + n }, ?_, ?_, ?_⟩
        · simp only [Emit.run, asmPut, h1]
          rw [if_pos (by omega)]
          simp only [h3]
        · simp only [h2]; exact h4
        · simp only [h2, Emit.bytes]; rw [h5, leBytes_eq]
      | op w =>
        have hl := leBytes_length 4 w.toNat
        obtain ⟨b1, m, h1, h2, h3, h4, h5⟩ := emit_spec b j (leBytes 4 w.toNat) hb
        rw [hl] at h1 h4 h5
        refine ⟨{ mem := m, len := b1.len + 4 }, ?_, ?_, ?_⟩
        · simp only [Emit.run, Ops.asmOp, h1, h3]
        · simp only [h2]; exact h4
        · simp only [h2, Emit.bytes]; rw [h5, leBytes_eq]
    obtain ⟨b1, e1, e2, e3⟩ := step
    obtain ⟨b2, f1, f2, f3⟩ := ih b1 e2 (fun x hx => hw x (by simp [hx]))
    refine ⟨b2, by simp only [emitAll, e1, f1], f2, ?_⟩
    rw [f3, e3]; simp

example : (Emit.op 0x00200103#32).bytes = [0x03, 0x01, 0x20, 0x00] := by decide

/-- C37 (finding): a string literal is collected in such a buffer and then read as a C string, but the buffer only makes
room for the bytes themselves: when the literal fills it exactly (496 bytes for a new buffer) no NUL follows inside the
block, and reading the string runs past its end. -/
theorem C37_literal_unterminated (s : List (BitVec 8)) (hs : s.length = 496) (hz : ∀ c ∈ s, c ≠ 0#8) (j0 j : Nat → BitVec 8) :
    ∃ b, literal (asmNew j0) [(s, j)] = some b ∧ b.mem = s ∧ cstring b = none := by
  have hlen : (asmClear (asmNew j0)).mem.length = 496 := by
    unfold asmClear asmNew; rw [List.length_replicate, block_length]; rfl
  refine ⟨{ mem := s, len := 496 }, ?_, rfl, ?_⟩
  · have hl0 : (asmClear (asmNew j0)).len = 0 := rfl
    simp only [literal, asmWrites, asmWrite, flexNeeds]
    rw [if_neg (by omega)]
    simp only [writeAt]
    rw [if_pos (by omega)]
    simp only [hl0, List.take_zero, List.nil_append, Nat.zero_add, hs]
    rw [List.drop_eq_nil_of_le (by omega), List.append_nil]
  · unfold cstring
    rw [if_neg]
    intro h
    exact hz _ h rfl

example : (List.replicate 496 0x61#8).length = 496 ∧ ∀ c ∈ List.replicate 496 0x61#8, c ≠ 0#8 := by
  refine ⟨List.length_replicate, ?_⟩
  intro c hc
  rw [List.eq_of_mem_replicate hc]; decide

/-! ## C24 instruction fields -/

theorem opCode_encode (code : BitVec 8) (a b : BitVec 32) : Ops.opCode (Ops.encode code a b) = code := by
  unfold Ops.opCode Ops.encode
  apply BitVec.eq_of_getLsbD_eq
  intro i hi
  rw [BitVec.getLsbD_extractLsb', BitVec.getLsbD_append]
  simp [hi]

theorem opA_encode (code : BitVec 8) (a b : BitVec 32) : Ops.opA (Ops.encode code a b) = (Ops.field a).signExtend 32 := by
  unfold Ops.opA Ops.encode
  congr 1
  apply BitVec.eq_of_getLsbD_eq
  intro i hi
  rw [BitVec.getLsbD_extractLsb', BitVec.getLsbD_append, BitVec.getLsbD_append]
  simp [hi]

theorem opB_encode (code : BitVec 8) (a b : BitVec 32) : Ops.opB (Ops.encode code a b) = (Ops.field b).signExtend 32 := by
  unfold Ops.opB Ops.encode
  congr 1
  apply BitVec.eq_of_getLsbD_eq
  intro i hi
  rw [BitVec.getLsbD_extractLsb', BitVec.getLsbD_append, BitVec.getLsbD_append]
  have h1 : ¬ (20 + i < 8) := by omega
  have h2 : ¬ (20 + i - 8 < 12) := by omega
  have h3 : 20 + i - 8 - 12 = i := by omega
  simp [hi, h1, h2, h3]

theorem field_toInt (x : BitVec 32) : ((Ops.field x).signExtend 32).toInt = Int.bmod x.toInt 4096 := by
  rw [BitVec.toInt_signExtend_of_le (by omega)]
  unfold Ops.field
  rw [BitVec.toInt_eq_toNat_bmod, BitVec.toNat_setWidth, BitVec.toInt_eq_toNat_bmod]
  have := x.isLt
  simp only [Int.bmod]
  omega

/-- C24: any operands: the opcode is kept and the operands are kept modulo 4096, as signed 12-bit numbers. -/
theorem C24_fields_wrap (code : BitVec 8) (a b : BitVec 32) :
    Ops.opCode (Ops.encode code a b) = code ∧
    (Ops.opA (Ops.encode code a b)).toInt = Int.bmod a.toInt 4096 ∧
    (Ops.opB (Ops.encode code a b)).toInt = Int.bmod b.toInt 4096 := by
  rw [opCode_encode, opA_encode, opB_encode, field_toInt, field_toInt]
  exact ⟨rfl, rfl, rfl⟩

theorem field_ofInt {a : Int} (h : -2048 ≤ a ∧ a ≤ 2047) : ((Ops.field (BitVec.ofInt 32 a)).signExtend 32).toInt = a := by
  rw [field_toInt, BitVec.toInt_ofInt]
  simp only [Int.bmod]
  omega

theorem field_idem (x : BitVec 32) : Ops.field ((Ops.field x).signExtend 32) = Ops.field x := by
  unfold Ops.field
  apply BitVec.eq_of_getLsbD_eq
  intro i hi
  rw [BitVec.getLsbD_setWidth, BitVec.getLsbD_signExtend]
  simp [hi]
  intro h; omega

/-- C24: the opcode and both operands of an instruction read back unchanged for every operand in -2048..2047, and
patching one operand later leaves the rest alone. -/
theorem C24_fields (code : BitVec 8) (a b d : Int) (ha : -2048 ≤ a ∧ a ≤ 2047) (hb : -2048 ≤ b ∧ b ≤ 2047)
    (hd : -2048 ≤ d ∧ d ≤ 2047) :
    let w := Ops.encode code (BitVec.ofInt 32 a) (BitVec.ofInt 32 b)
    (Ops.opCode w = code ∧ (Ops.opA w).toInt = a ∧ (Ops.opB w).toInt = b) ∧
    (Ops.opCode (Ops.setB w (BitVec.ofInt 32 d)) = code ∧ (Ops.opA (Ops.setB w (BitVec.ofInt 32 d))).toInt = a ∧
      (Ops.opB (Ops.setB w (BitVec.ofInt 32 d))).toInt = d) ∧
    (Ops.opCode (Ops.setA w (BitVec.ofInt 32 d)) = code ∧ (Ops.opA (Ops.setA w (BitVec.ofInt 32 d))).toInt = d ∧
      (Ops.opB (Ops.setA w (BitVec.ofInt 32 d))).toInt = b) := by
  simp only [Ops.setA, Ops.setB, opCode_encode, opA_encode, opB_encode, field_idem, field_ofInt ha, field_ofInt hb,
    field_ofInt hd, and_self]

/-- C24: a constant is emitted as an immediate operand only if executing the instruction gives back that very value, and
that is the case exactly for nil, true, false and the integers -1024..1023 (among the non-pointer values). -/
theorem C24_immediate (v : BitVec 64) (code : BitVec 8) (a : BitVec 32) :
    (Ops.immediate v = true → Ops.loadPN (Ops.encode code a (v.setWidth 32)) = v) ∧
    (∀ i, Denotes v i → (Ops.immediate v = true ↔ -1024 ≤ i ∧ i ≤ 1023)) ∧
    (Ops.immediate PN_NIL = true ∧ Ops.immediate PN_TRUE = true ∧ Ops.immediate PN_FALSE = true) := by
  have sgn : ((v.setWidth 12).signExtend 64).toInt = Int.bmod v.toInt 4096 := by
    rw [BitVec.toInt_signExtend_of_le (by omega), BitVec.toInt_eq_toNat_bmod, BitVec.toNat_setWidth, BitVec.toInt_eq_toNat_bmod]
    have := v.isLt
    simp only [Int.bmod]
    omega
  refine ⟨?_, ?_, by decide⟩
  · intro h
    unfold Ops.immediate at h
    simp only [Bool.and_eq_true, beq_iff_eq] at h
    unfold Ops.loadPN
    rw [opB_encode]
    apply BitVec.eq_of_toInt_eq
    rw [BitVec.toInt_signExtend_of_le (by omega), field_toInt]
    have e : v.toInt = Int.bmod v.toInt 4096 := by rw [← sgn, ← h.2]
    have e2 : (v.setWidth 32).toInt = Int.bmod v.toInt (2^32) := by
      rw [BitVec.toInt_eq_toNat_bmod, BitVec.toNat_setWidth, BitVec.toInt_eq_toNat_bmod]
      simp only [Int.bmod]; omega
    rw [e2]
    simp only [Int.bmod] at e ⊢
    omega
  · intro i hi
    unfold Denotes at hi
    have hint : isInt v = true := by
      rw [isInt_iff]
      rw [BitVec.toInt_eq_toNat_bmod] at hi
      simp only [Int.bmod] at hi
      omega
    have hp : isPtr v = false := by unfold isPtr; rw [hint]; rfl
    unfold Ops.immediate
    rw [hp]
    simp only [Bool.not_false, Bool.true_and, beq_iff_eq]
    constructor
    · intro h
      have e : v.toInt = Int.bmod v.toInt 4096 := by rw [← sgn, ← h]
      simp only [Int.bmod] at e
      omega
    · intro h
      apply BitVec.eq_of_toInt_eq
      rw [sgn]
      simp only [Int.bmod]
      omega

/-- C24 (finding): operands outside the range are truncated silently: constant number 2048 of a function is read back as
number -2048, and a jump over 2048 instructions goes backwards. -/
theorem C24_overflow_refuted :
    (Ops.opB (Ops.encode 2#8 0#32 2048#32)).toInt = -2048 ∧ (Ops.opA (Ops.encode 38#8 2048#32 0#32)).toInt = -2048 := by
  decide

example : Denotes (pnNum 1023) 1023 ∧ Ops.immediate (pnNum 1023) = true ∧ Ops.immediate (pnNum 1024) = false ∧
    Ops.immediate (pnNum (-1024)) = true ∧ Ops.immediate (pnNum (-1025)) = false := by decide

end Potion.Props
