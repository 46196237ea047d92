import Verif.Proof.Agree4
/-! The two models of the compiler agree. -/
namespace Potion.CompileAll
open Potion Potion.Vm Potion.Peg
open Potion.Compile (Name Src u8 bytesOf MAX_JUMPS comp sourceOf messageSrc listSrc argsSrc argsOf blockSrc chainOf stmtsOf seqOf paramsOf namesOf absent argc isAssign keywords
  messageOf isGlobal binOf programOf)

variable {dl : List (BitVec 8) → Bool} {n : Nat}

theorem Fine_node {k a b c} (h : Fine (.node k a b c) = true) : fine k a b c = true ∧ Fine a = true ∧ Fine b = true ∧ Fine c = true := by
  simp only [Fine, Bool.and_eq_true] at h
  exact ⟨h.1.1.1, h.1.1.2, h.1.2, h.2⟩
theorem size_node {k a b c} (h : sizeOf (Tree.node k a b c) ≤ n + 1) : sizeOf a ≤ n ∧ sizeOf b ≤ n ∧ sizeOf c ≤ n := by
  simp only [Tree.node.sizeOf_spec] at h; omega
theorem isNil_node {k a b c} : isNil (.node k a b c) = false := rfl

theorem regs_has (c : Compile.CSt) (r : Nat) : r < (c.regs r).stack := Compile.regs_lt c r

theorem upper_global (x : Name) : isUpper x = isGlobal x := by cases x <;> rfl

/-- Sources, one deeper. -/
theorem src_step (H : Sim dl n) {t S} (hz : sizeOf t ≤ n + 1) (hs : sourceOf t = some S) (hf : Fine t = true) {m c d c' reg} (hr : Rel m c d)
    (hc : comp S false 0 reg c = some c') : ∃ d', asmb dl (n + 1) t 0 reg d = some d' ∧ Rel m c' d' := by
  unfold sourceOf at hs
  split at hs
  · split at hs
    · obtain ⟨S', -, hs⟩ := Option.bind_eq_some_iff.1 hs
      obtain rfl := Option.some.inj hs
      simp [comp] at hc
    · contradiction
  · rename_i a l b c2 _
    split at hs
    · obtain ⟨A, hA, hs⟩ := Option.bind_eq_some_iff.1 hs
      obtain ⟨B, hB, hs⟩ := Option.bind_eq_some_iff.1 hs
      obtain rfl := Option.some.inj hs
      have hz' : sizeOf (a :: l) ≤ n := by simp only [Tree.node.sizeOf_spec, Tree.tup.sizeOf_spec] at hz; omega
      have hf' : FineAll (a :: l) = true := by have := (Fine_node hf).2.1; simpa [Fine] using this
      obtain ⟨d', h1, h2⟩ := chain_sim H (a :: l) 0 (S := .chain A B) (reg := reg) hz' (by rw [chainOf, hA, hB]; rfl) hf' (hr.regs reg) (regs_has c reg) (c' := c')
        (by rw [← hc]; simp only [comp, noop (regs_has c reg)])
      exact ⟨d', h1, h2⟩
    · contradiction
  · rename_i x b c2 b' c2' e d0
    split at hs
    · rename_i hab
      obtain ⟨E, hE, hs⟩ := Option.bind_eq_some_iff.1 hs
      obtain rfl := Option.some.inj hs
      simp only [comp] at hc
      split at hc
      · contradiction
      · rename_i hgl
        split at hc
        · contradiction
        · rename_i c1 h1
          obtain rfl := Option.some.inj hc
          obtain ⟨v1, r1⟩ := (hr.regs reg).var x
          obtain ⟨d1, e1, r2⟩ := H.src (size_node hz).2.1 hE (Fine_node hf).2.2.1 r1 h1
          have hb : isNil b = true := by
            rw [isNil_absent]; simp only [Bool.and_eq_true] at hab; exact hab.1.1.1.1
          have ht : target .msg (.str x) 0 reg (d.regs reg) = some (((d.regs reg).var (.str x)).1, if ((d.regs reg).var (.str x)).2.1 then .upval else .local,
              ((d.regs reg).var (.str x)).2.2, reg) := by
            simp only [target, true_or, if_true]
            rw [if_neg (by rw [upper_global]; exact hgl)]
          generalize (d.regs reg).var (.str x) = w at *
          obtain ⟨dw, up, num⟩ := w
          simp only [] at v1 r1 ht e1
          refine ⟨CSt.regs (d1.asm (setOp up) reg num) reg, ?_, ?_⟩
          · show assignTo (asmb dl n) .msg (.str x) b e 0 reg (d.regs reg) = _
            unfold assignTo
            rw [ht]
            show (if isNil b = true then _ else _) = _
            rw [if_pos hb, e1]
            cases up <;> rfl
          · rw [← congrArg Prod.fst v1, ← congrArg Prod.snd v1]
            exact (r2.asm (opcode_set _) _ _).regs _
    · contradiction
  · rename_i a b c2
    split at hs
    · obtain ⟨A, hA, hs⟩ := Option.bind_eq_some_iff.1 hs
      obtain ⟨B, hB, hs⟩ := Option.bind_eq_some_iff.1 hs
      obtain rfl := Option.some.inj hs
      simp only [comp] at hc
      split at hc
      · contradiction
      · rename_i c1 h1
        split at hc
        · contradiction
        · rename_i c3 h3
          obtain rfl := Option.some.inj hc
          obtain ⟨d1, e1, r1⟩ := arg_sim H (size_node hz).1 hA (Fine_node hf).2.1 (hr.regs reg) (.inl (regs_has c reg)) h1
          have hg : reg < c1.stack := Nat.lt_of_lt_of_le (regs_has c reg) (Compile.comp_up _ _ _ _ _ _ h1).rest.stack
          obtain ⟨d2, e2, r2⟩ := arg_sim H (size_node hz).2.1 hB (Fine_node hf).2.2.1 (r1.asm (op := .notjmp) (op' := .notjmp) rfl reg 0) (.inl hg) h3
          refine ⟨d2.patchB d1.len ((d2.len : Int) - d1.len - 1), ?_, ?_⟩
          · show Option.bind (pnArg (asmb dl n) a reg (d.regs reg)) _ = _
            rw [e1]
            show Option.bind (pnArg (asmb dl n) b reg (d1.asm .notjmp reg 0)) _ = _
            rw [e2]; rfl
          · rw [r2.len, r1.len]; exact r2.patchB _ _
    · contradiction
  · rename_i a b c2
    split at hs
    · obtain ⟨A, hA, hs⟩ := Option.bind_eq_some_iff.1 hs
      obtain ⟨B, hB, hs⟩ := Option.bind_eq_some_iff.1 hs
      obtain rfl := Option.some.inj hs
      simp only [comp] at hc
      split at hc
      · contradiction
      · rename_i c1 h1
        split at hc
        · contradiction
        · rename_i c3 h3
          obtain rfl := Option.some.inj hc
          obtain ⟨d1, e1, r1⟩ := arg_sim H (size_node hz).1 hA (Fine_node hf).2.1 (hr.regs reg) (.inl (regs_has c reg)) h1
          have hg : reg < c1.stack := Nat.lt_of_lt_of_le (regs_has c reg) (Compile.comp_up _ _ _ _ _ _ h1).rest.stack
          obtain ⟨d2, e2, r2⟩ := arg_sim H (size_node hz).2.1 hB (Fine_node hf).2.2.1 (r1.asm (op := .testjmp) (op' := .testjmp) rfl reg 0) (.inl hg) h3
          refine ⟨d2.patchB d1.len ((d2.len : Int) - d1.len - 1), ?_, ?_⟩
          · show Option.bind (pnArg (asmb dl n) a reg (d.regs reg)) _ = _
            rw [e1]
            show Option.bind (pnArg (asmb dl n) b reg (d1.asm .testjmp reg 0)) _ = _
            rw [e2]; rfl
          · rw [r2.len, r1.len]; exact r2.patchB _ _
    · contradiction
  · rename_i k a b c2 _ _ _ _ _
    split at hs
    · split at hs
      · rename_i o ho
        obtain ⟨A, hA, hs⟩ := Option.bind_eq_some_iff.1 hs
        obtain ⟨B, hB, hs⟩ := Option.bind_eq_some_iff.1 hs
        obtain rfl := Option.some.inj hs
        simp only [comp] at hc
        split at hc
        · contradiction
        · rename_i c1 h1
          split at hc
          · contradiction
          · rename_i c3 h3
            obtain rfl := Option.some.inj hc
            obtain ⟨d1, e1, r1⟩ := arg_sim H (size_node hz).1 hA (Fine_node hf).2.1 (hr.regs reg) (.inl (regs_has c reg)) h1
            have hb : binOp k = some (opcode o.opc) := by
              cases k <;> simp only [binOf, Option.some.injEq, reduceCtorEq] at ho <;> subst ho <;> rfl
            have he : emptyParens b = false := by
              have := (Fine_node hf).1
              cases k <;> first | (simp [binOf] at ho; done) | simpa [fine, hb] using this
            obtain ⟨d2, e2, r2⟩ := arg_sim H (size_node hz).2.1 hB (Fine_node hf).2.2.1 (r1.wide (reg + 1)) (.inr he) h3
            refine ⟨d2.asm (opcode o.opc) reg (reg + 1), ?_, r2.asm rfl _ _⟩
            have : asmb dl (n + 1) (.node k a b c2) 0 reg d = (match binOp k with
              | none => none
              | some op => do
                let st ← pnArg (asmb dl n) a reg (d.regs reg)
                let st ← pnArg (asmb dl n) b ((reg + 1) % 256) (st.wide (reg + 1))
                return st.asm op reg (reg + 1)) := by
              cases k <;> first | rfl | (simp [binOf] at ho; done)
            rw [this, hb]
            show Option.bind (pnArg (asmb dl n) a reg (d.regs reg)) _ = _
            rw [e1]
            show Option.bind (pnArg (asmb dl n) b ((reg + 1) % 256) (d1.wide (reg + 1))) _ = _
            rw [show (reg + 1) % 256 = u8 (reg + 1) from rfl, e2]; rfl
      · contradiction
    · contradiction
  · contradiction

end Potion.CompileAll
