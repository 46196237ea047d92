import Verif.Proof.Agree5
/-! The two models of the compiler agree: messages, programs. -/
namespace Potion.CompileAll
open Potion Potion.Vm Potion.Peg
open Potion.Compile (Name Src u8 bytesOf MAX_JUMPS comp sourceOf messageSrc listSrc argsSrc argsOf blockSrc chainOf stmtsOf seqOf paramsOf namesOf absent argc isAssign keywords
  messageOf isGlobal binOf programOf)

variable {dl : List (BitVec 8) → Bool} {n : Nat}

section keys
variable {rec : Rec} {v blk : Tree} {count reg : Nat} {st : CSt}
theorem msgNode_if : msgNode dl rec .msg (.str (bytesOf "if")) v blk count reg st = ifMsg rec v blk reg st := rfl
theorem msgNode_elsif : msgNode dl rec .msg (.str (bytesOf "elsif")) v blk count reg st = elsifMsg rec v blk reg st := rfl
theorem msgNode_else : msgNode dl rec .msg (.str (bytesOf "else")) v blk count reg st = elseMsg rec blk reg st := rfl
theorem msgNode_while : msgNode dl rec .msg (.str (bytesOf "while")) v blk count reg st = whileMsg rec v blk reg st := rfl
theorem msgNode_loop : msgNode dl rec .msg (.str (bytesOf "loop")) v blk count reg st = loopMsg rec (.str (bytesOf "loop")) v blk count reg st := rfl
theorem msgNode_return : msgNode dl rec .msg (.str (bytesOf "return")) v blk count reg st = (do
      let (st, _) ← argAsmb rec v reg false st
      return CSt.regs (st.asm .ret reg 0) reg) := rfl
theorem msgNode_break : msgNode dl rec .msg (.str (bytesOf "break")) v blk count reg st = (jumpMsg true st).map fun st => st.regs reg := rfl
theorem msgNode_continue : msgNode dl rec .msg (.str (bytesOf "continue")) v blk count reg st = (jumpMsg false st).map fun st => st.regs reg := rfl
theorem msgNode_self : msgNode dl rec .msg (.str (bytesOf "self")) v blk count reg st = some (CSt.regs (st.asm .self reg 0) reg) := rfl
theorem msgNode_plain {x : Name} (h : x ∉ keywords) : msgNode dl rec .msg (.str x) v blk count reg st = plainMsg rec .msg (.str x) v blk count reg reg st := by
  have k : ∀ s ∈ keywords, x ≠ s := fun s hs e => h (e ▸ hs)
  unfold msgNode
  dsimp only
  rw [if_neg (k _ (by decide)), if_neg (k _ (by decide)), if_neg (k _ (by decide)), if_neg (k _ (by decide)), if_neg (k _ (by decide)), if_neg (k _ (by decide)),
    if_neg (k _ (by decide)), if_neg (k _ (by decide)), if_neg (k _ (by decide)), if_neg (k _ (by decide)), if_neg (k _ (by decide))]
end keys

theorem regs_noop {m : Nat} {c : Compile.CSt} {d : CSt} {r : Nat} (h : Rel m c d) (hr : r < c.stack) : Rel m c (d.regs r) := by
  have := h.regs r
  rwa [noop hr] at this

theorem if_sim (H : Sim dl n) {v b A B} (hzv : sizeOf v ≤ n) (hzb : sizeOf b ≤ n) (hv : listSrc v = some A) (hb : blockSrc b = some B) (fv : Fine v = true) (fb : Fine b = true)
    {m c d c' count reg} (hr : Rel m c d) (hc : comp (.ifm A B) false count reg c = some c') : ∃ d', ifMsg (asmb dl n) v b reg (d.regs reg) = some d' ∧ Rel m c' d' := by
  simp only [comp] at hc
  split at hc
  · contradiction
  · rename_i c1 h1
    split at hc
    · contradiction
    · rename_i c2 h2
      obtain rfl := Option.some.inj hc
      obtain ⟨nv, d1, e1, q1⟩ := cond_sim H (by omega) hv fv ((hr.regs reg).wide (reg + 1)) h1
      obtain ⟨m', r1, fin⟩ := cond_settle ((hr.regs reg).wide (reg + 1)) q1
      obtain ⟨d2, e2, r2⟩ := H.blk hzb hb fb (r1.asm (op := .notjmp) (op' := .notjmp) rfl (u8 (reg + 1) : Nat) 0) h2
      obtain ⟨x, y, z, rfl⟩ := block_kind hb
      refine ⟨CSt.regs (d2.patchB d1.len ((d2.len : Int) - d1.len - 1)) (u8 (reg + 1)), ?_, ?_⟩
      · unfold ifMsg
        rw [nv]
        dsimp only [Bool.false_eq_true, if_false]
        show Option.bind (argAsmb (asmb dl n) v (u8 (reg + 1)) false ((d.regs reg).wide (reg + 1))) _ = _
        rw [e1]
        show Option.bind (asmb dl n _ 0 reg (d1.asm .notjmp (u8 (reg + 1) : Nat) 0)) _ = _
        rw [e2]; rfl
      · rw [r2.len, r1.len]; exact fin (r2.patchB _ _)

theorem elsif_sim (H : Sim dl n) {v b A B} (hzv : sizeOf v ≤ n) (hzb : sizeOf b ≤ n) (hv : listSrc v = some A) (hb : blockSrc b = some B) (fv : Fine v = true) (fb : Fine b = true)
    {m c d c' count reg} (hr : Rel m c d) (hc : comp (.elsifm A B) false count reg c = some c') : ∃ d', elsifMsg (asmb dl n) v b reg (d.regs reg) = some d' ∧ Rel m c' d' := by
  simp only [comp] at hc
  split at hc
  · contradiction
  · rename_i c1 h1
    split at hc
    · contradiction
    · rename_i c2 h2
      obtain rfl := Option.some.inj hc
      have r0 := ((hr.regs reg).wide (reg + 1)).asm (op := .testjmp) (op' := .testjmp) rfl (u8 (reg + 1) : Nat) 0
      obtain ⟨nv, d1, e1, q1⟩ := cond_sim H (by omega) hv fv r0 h1
      obtain ⟨m', r1, fin⟩ := cond_settle r0 q1
      obtain ⟨d2, e2, r2⟩ := H.blk hzb hb fb (r1.asm (op := .notjmp) (op' := .notjmp) rfl (u8 (reg + 1) : Nat) 0) h2
      obtain ⟨x, y, z, rfl⟩ := block_kind hb
      refine ⟨CSt.regs ((d2.patchB (d.regs reg).len ((d2.len : Int) - (d.regs reg).len - 1)).patchB d1.len ((d2.len : Int) - d1.len - 1)) (u8 (reg + 1)), ?_, ?_⟩
      · unfold elsifMsg
        rw [nv]
        dsimp only [Bool.false_eq_true, if_false]
        show Option.bind (argAsmb (asmb dl n) v (u8 (reg + 1)) false (((d.regs reg).wide (reg + 1)).asm .testjmp (u8 (reg + 1) : Nat) 0)) _ = _
        rw [e1]
        show Option.bind (asmb dl n _ 0 reg (d1.asm .notjmp (u8 (reg + 1) : Nat) 0)) _ = _
        rw [e2]; rfl
      · rw [r2.len, r1.len, (hr.regs reg).len]; exact fin ((r2.patchB _ _).patchB _ _)

theorem else_sim (H : Sim dl n) {b B} (hzb : sizeOf b ≤ n) (hb : blockSrc b = some B) (fb : Fine b = true)
    {m c d c' count reg} (hr : Rel m c d) (hc : comp (.elsem B) false count reg c = some c') : ∃ d', elseMsg (asmb dl n) b reg (d.regs reg) = some d' ∧ Rel m c' d' := by
  simp only [comp] at hc
  split at hc
  · contradiction
  · rename_i c2 h2
    obtain rfl := Option.some.inj hc
    have r0 := ((hr.regs reg).wide (reg + 1)).asm (op := .testjmp) (op' := .testjmp) rfl (u8 (reg + 1) : Nat) 0
    obtain ⟨d2, e2, r2⟩ := H.blk hzb hb fb r0 h2
    obtain ⟨x, y, z, rfl⟩ := block_kind hb
    refine ⟨CSt.regs (d2.patchB (d.regs reg).len ((d2.len : Int) - (d.regs reg).len - 1)) (u8 (reg + 1)), ?_, ?_⟩
    · unfold elseMsg
      dsimp only [isNil_node, Bool.false_eq_true, if_false]
      show Option.bind (asmb dl n _ 0 reg (((d.regs reg).wide (reg + 1)).asm .testjmp (u8 (reg + 1) : Nat) 0)) _ = _
      rw [e2]; rfl
    · rw [r2.len, (hr.regs reg).len]; exact (r2.patchB _ _).regs _

/-- compile.c:728-737: the end of a loop. -/
def loopEnd (st : CSt) (jmp2 : Nat) (jmp1 : Option Nat) (lp : Option (List Nat × List Nat)) : CSt :=
  let st := st.asm .jmp ((jmp2 : Int) - st.len - 1) 0
  let st := st.exit jmp1
  let jumps := st.loop.getD ([], [])
  let st := st.patchAll st.len jumps.1
  let st := st.patchAll jmp2 jumps.2
  { st with loop := lp }
theorem loopBody_eq {rec : Rec} {k x y z} {reg jmp2 : Nat} {jmp1 : Option Nat} {st : CSt} : loopBody rec (.node k x y z) reg jmp2 jmp1 st =
    (rec (.node k x y z) 0 reg { st with loop := some ([], []) }).map fun s => loopEnd s jmp2 jmp1 st.loop := by
  unfold loopBody
  dsimp only [isNil_node, Bool.false_eq_true, if_false]
  show Option.bind (rec (.node k x y z) 0 reg { st with loop := some ([], []) }) _ = _
  cases rec (.node k x y z) 0 reg { st with loop := some ([], []) } <;> rfl

/-- The same in the other model. -/
def loopEnd' (st : Compile.CSt) (jmp2 : Nat) (jmp1 : Option Nat) (lp : Option (List Nat × List Nat)) : Compile.CSt :=
  let st := st.asm .jmp ((jmp2 : Int) - st.len - 1) 0
  let st := match jmp1 with
    | some j => st.patchB j ((st.len : Int) - j - 1)
    | none => st
  let jumps := st.loop.getD ([], [])
  let st := st.patchAll st.len jumps.1
  let st := st.patchAll jmp2 jumps.2
  { st with loop := lp }
theorem Rel.loopEnd {m c d} (h : Rel m c d) (jmp2 : Nat) (jmp1 : Option Nat) (lp) : Rel m (loopEnd' c jmp2 jmp1 lp) (loopEnd d jmp2 jmp1 lp) := by
  have r1 := h.asm (op := .jmp) (op' := .jmp) rfl ((jmp2 : Int) - c.len - 1) 0
  unfold loopEnd' CompileAll.loopEnd
  rw [h.len]
  dsimp only
  generalize c.asm .jmp ((jmp2 : Int) - c.len - 1) 0 = c1 at *
  generalize d.asm .jmp ((jmp2 : Int) - c.len - 1) 0 = d1 at *
  have r2 : Rel m (match jmp1 with
    | some j => c1.patchB j ((c1.len : Int) - j - 1)
    | none => c1) (d1.exit jmp1) := by
    cases jmp1 with
    | none => exact r1
    | some j => unfold CSt.exit; dsimp only; rw [r1.len]; exact r1.patchB _ _
  generalize (match jmp1 with
    | some j => c1.patchB j ((c1.len : Int) - j - 1)
    | none => c1) = c2 at *
  generalize d1.exit jmp1 = d2 at *
  rw [r2.len, r2.loop]
  exact (Rel.patchAll _ _ (Rel.patchAll _ _ r2)).setLoop _

theorem while_sim (H : Sim dl n) {v b A B} (hzv : sizeOf v ≤ n) (hzb : sizeOf b ≤ n) (hv : listSrc v = some A) (hb : blockSrc b = some B) (fv : Fine v = true) (fb : Fine b = true)
    {m c d c' count reg} (hr : Rel m c d) (hc : comp (.whilem A B) false count reg c = some c') : ∃ d', whileMsg (asmb dl n) v b reg (d.regs reg) = some d' ∧ Rel m c' d' := by
  simp only [comp] at hc
  split at hc
  · contradiction
  · rename_i c1 h1
    split at hc
    · contradiction
    · rename_i c2 h2
      obtain rfl := Option.some.inj hc
      obtain ⟨nv, d1, e1, q1⟩ := cond_sim H (by omega) hv fv ((hr.regs reg).wide (reg + 1)) h1
      obtain ⟨m', r1, fin⟩ := cond_settle ((hr.regs reg).wide (reg + 1)) q1
      obtain ⟨d2, e2, r2⟩ := H.blk hzb hb fb ((r1.asm (op := .notjmp) (op' := .notjmp) rfl (u8 (reg + 1) : Nat) 0).setLoop (some ([], []))) h2
      obtain ⟨x, y, z, rfl⟩ := block_kind hb
      refine ⟨CSt.regs (loopEnd d2 (d.regs reg).len (some d1.len) d1.loop) (u8 (reg + 1)), ?_, ?_⟩
      · unfold whileMsg
        show Option.bind (argAsmb (asmb dl n) v (u8 (reg + 1)) false ((d.regs reg).wide (reg + 1))) _ = _
        rw [e1]
        show Option.bind (loopBody (asmb dl n) _ reg (d.regs reg).len (some d1.len) (d1.asm .notjmp (u8 (reg + 1) : Nat) 0)) _ = _
        rw [loopBody_eq]
        show Option.bind (Option.map _ (asmb dl n _ 0 reg { d1.asm .notjmp (u8 (reg + 1) : Nat) 0 with loop := some ([], []) })) _ = _
        rw [e2]; rfl
      · rw [r1.len, r1.loop, (hr.regs reg).len]
        exact fin (r2.loopEnd (c.regs reg).len (some c1.len) c1.loop)

theorem loop_sim (H : Sim dl n) {v b B} {x : Tree} (hzb : sizeOf b ≤ n) (hv : isNil v = true) (hb : blockSrc b = some B) (fb : Fine b = true)
    {m c d c' count count' reg} (hr : Rel m c d) (hc : comp (.loopm B) false count reg c = some c') : ∃ d', loopMsg (asmb dl n) x v b count' reg (d.regs reg) = some d' ∧ Rel m c' d' := by
  simp only [comp] at hc
  split at hc
  · contradiction
  · rename_i c2 h2
    obtain rfl := Option.some.inj hc
    obtain ⟨d2, e2, r2⟩ := H.blk hzb hb fb (((hr.regs reg).wide (reg + 1)).setLoop (some ([], []))) h2
    obtain ⟨x, y, z, rfl⟩ := block_kind hb
    refine ⟨CSt.regs (loopEnd d2 (d.regs reg).len none (d.regs reg).loop) (u8 (reg + 1)), ?_, ?_⟩
    · unfold loopMsg
      rw [hv, isNil_node, loopBody_eq]
      rw [if_pos (show (true && !false) = true from rfl), e2]; rfl
    · rw [(hr.regs reg).len, (hr.regs reg).loop]
      exact (r2.loopEnd (c.regs reg).len none (c.regs reg).loop).regs _

theorem ret_sim (H : Sim dl n) {v A} (hzv : sizeOf v ≤ n) (hv : listSrc v = some A) (fv : Fine v = true)
    {m c d c' count reg} (hr : Rel m c d) (hc : comp (.retv A) false count reg c = some c') :
    ∃ d', (do let (st, _) ← argAsmb (asmb dl n) v reg false (d.regs reg); return CSt.regs (st.asm .ret reg 0) reg) = some d' ∧ Rel m c' d' := by
  simp only [comp] at hc
  split at hc
  · contradiction
  · rename_i c1 h1
    obtain rfl := Option.some.inj hc
    obtain ⟨nv, d1, e1, q1⟩ := cond_sim H (by omega) hv fv (hr.regs reg) h1
    have hg : reg < c1.stack := Nat.lt_of_lt_of_le (regs_has c reg) (Compile.comp_up _ _ _ _ _ _ h1).rest.stack
    have r1 : Rel m c1 d1 := by
      rcases q1 with q1 | ⟨rfl, rfl⟩
      · exact q1
      · rw [noop (regs_has c reg)]; exact hr.regs reg
    refine ⟨CSt.regs (d1.asm .ret reg 0) reg, ?_, regs_noop (r1.asm rfl _ _) hg⟩
    rw [e1]; rfl

theorem call_sim (H : Sim dl n) {x v A} (hzv : sizeOf v ≤ n) (hv : argsSrc v = some A) (fv : Fine v = true) {b : Tree} (hb : isNil b = true)
    {m c d c' count reg} (hr : Rel m c d) (hc : comp (.call x A) false count reg c = some c') :
    ∃ d', msgNode dl (asmb dl n) .msg (.str x) v b count reg (d.regs reg) = some d' ∧ Rel m c' d' := by
  simp only [comp] at hc
  split at hc
  · rename_i hk
    obtain ⟨rfl, hk⟩ := hk
    rw [msgNode_plain hk]
    split at hc
    · contradiction
    · rename_i c1 up num hl
      split at hc
      · contradiction
      · rename_i c2 h2
        obtain rfl := Option.some.inj hc
        obtain ⟨d1, e1, r1⟩ := (hr.regs reg).look hl
        have r2 := ((r1.asm (opcode_get up) (reg : Int) (num : Int)).wide (reg + 1)).asm (op := .self) (op' := .self) rfl (u8 (reg + 1) : Nat) 0
        have key : ∃ d2, argAsmb (asmb dl n) v (u8 (reg + 1)) true (CSt.asm ((d1.asm (getOp up) reg num).wide (reg + 1)) .self (u8 (reg + 1) : Nat) 0) = some (d2, u8 (reg + 1 + argc A)) ∧
            Rel m c2 d2 ∧ isNil v = false := by
          unfold argsSrc at hv
          split at hv
          · rename_i w b1 b2
            split at hv
            · rename_i hw
              obtain rfl := Option.some.inj hv
              rw [comp] at h2
              obtain rfl := Option.some.inj h2
              refine ⟨_, argAsmb_nil ?_, r2, rfl⟩
              simp only [Bool.and_eq_true] at hw
              exact hw.1.1
            · contradiction
          · rename_i l b1 b2
            split at hv
            · have hz : sizeOf l ≤ n := by simp only [Tree.node.sizeOf_spec, Tree.tup.sizeOf_spec] at hzv; omega
              have hf : FineAll l = true := by have := (Fine_node fv).2.1; simpa [Fine] using this
              have e : u8 (u8 (reg + 1) + 1) = u8 (reg + 2) := by simp only [u8]; omega
              obtain ⟨d2, e2, r3⟩ := args_sim H l (freg := u8 (reg + 1)) (k := l.length) (reg := u8 (reg + 1)) hz hv hf r2 (Nat.mod_lt _ (by omega)) (by rw [e]; exact h2)
              refine ⟨d2, ?_, r3, rfl⟩
              rw [argAsmb_inc, e2]
              congr 2
              simp only [u8]; omega
            · contradiction
          · contradiction
        obtain ⟨d2, e2, r3, nv⟩ := key
        refine ⟨CSt.regs (d2.asm .call reg (u8 (reg + 1 + argc A) : Nat)) (u8 (reg + 1 + argc A)), ?_, (r3.asm rfl _ _).regs _⟩
        unfold plainMsg
        rw [if_pos ⟨rfl, rfl⟩, e1]
        show varCall _ v b reg reg (d1.asm (getOp up) reg num) = _
        unfold varCall
        rw [nv, hb]
        dsimp only [Bool.false_and]
        rw [if_neg nofun]
        show Option.bind (argAsmb (asmb dl n) v (u8 (reg + 1)) true (CSt.asm ((d1.asm (getOp up) reg num).wide (reg + 1)) .self (u8 (reg + 1) : Nat) 0)) _ = _
        rw [e2]; rfl
  · contradiction

theorem var_sim {x} {v b : Tree} (hv : isNil v = true) (hb : isNil b = true) {m c d c' count reg} (hr : Rel m c d) (hc : comp (.msg x) false count reg c = some c') :
    ∃ d', msgNode dl (asmb dl n) .msg (.str x) v b count reg (d.regs reg) = some d' ∧ Rel m c' d' := by
  simp only [comp] at hc
  split at hc
  · rename_i hk
    obtain ⟨rfl, hk⟩ := hk
    rw [msgNode_plain hk]
    split at hc
    · contradiction
    · rename_i c1 up num hl
      obtain rfl := Option.some.inj hc
      obtain ⟨d1, e1, r1⟩ := (hr.regs reg).look hl
      have hg : reg < c1.stack := Nat.lt_of_lt_of_le (regs_has c reg) (Compile.look_spec hl).2.1.rest.stack
      refine ⟨CSt.regs (d1.asm (getOp up) reg num) reg, ?_, regs_noop (r1.asm (opcode_get _) _ _) hg⟩
      unfold plainMsg
      rw [if_pos ⟨rfl, rfl⟩, e1]
      show varCall _ v b reg reg (d1.asm (getOp up) reg num) = _
      unfold varCall
      rw [hv, hb]
      rfl
  · contradiction

end Potion.CompileAll
