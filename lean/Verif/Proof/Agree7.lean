import Verif.Proof.Agree6
/-! The two models of the compiler agree: all messages, programs. -/
namespace Potion.CompileAll
open Potion Potion.Vm Potion.Peg
open Potion.Compile (Name Src u8 bytesOf MAX_JUMPS comp sourceOf messageSrc listSrc argsSrc argsOf blockSrc chainOf stmtsOf seqOf paramsOf namesOf absent argc isAssign keywords
  messageOf isGlobal binOf programOf)

variable {dl : List (BitVec 8) → Bool} {n : Nat}

theorem jump_sim (b : Bool) {m c d c' reg} {count : Nat} (hr : Rel m c d) (hc : comp (if b then .brk else .cont) false count reg c = some c') :
    ∃ d', (jumpMsg b (d.regs reg)).map (fun st => st.regs reg) = some d' ∧ Rel m c' d' := by
  have r0 := hr.regs reg
  unfold jumpMsg
  cases b with
  | true =>
    simp only [if_true, comp] at hc ⊢
    split at hc
    · contradiction
    · rename_i bs cs hl
      split at hc
      · rename_i hj
        obtain rfl := Option.some.inj hc
        rw [r0.loop, hl]
        simp only [hj, if_true]
        refine ⟨_, rfl, regs_noop ?_ (regs_has c reg)⟩
        rw [r0.len]
        exact (r0.asm rfl 0 0).setLoop _
      · contradiction
  | false =>
    simp only [Bool.false_eq_true, if_false, comp] at hc ⊢
    split at hc
    · contradiction
    · rename_i bs cs hl
      split at hc
      · rename_i hj
        obtain rfl := Option.some.inj hc
        rw [r0.loop, hl]
        simp only [hj, if_true]
        refine ⟨_, rfl, regs_noop ?_ (regs_has c reg)⟩
        rw [r0.len]
        exact (r0.asm rfl 0 0).setLoop _
      · contradiction

theorem iteSome {α : Type} {p : Prop} [Decidable p] {a b : Option α} {x : α} (h : (if p then a else b) = some x) :
    p ∧ a = some x ∨ ¬ p ∧ b = some x := by
  by_cases hp : p
  · rw [if_pos hp] at h; exact .inl ⟨hp, h⟩
  · rw [if_neg hp] at h; exact .inr ⟨hp, h⟩

/-- A message. -/
theorem msgNode_sim (H : Sim dl n) {x v b S} (hzv : sizeOf v ≤ n) (hzb : sizeOf b ≤ n) (fv : Fine v = true) (fb : Fine b = true)
    (hs : messageOf x (listSrc v) (argsSrc v) (blockSrc b) (absent v) (absent b) = some S)
    {m c d c' count reg} (hr : Rel m c d) (hc : comp S false count reg c = some c') :
    ∃ d', msgNode dl (asmb dl n) .msg (.str x) v b count reg (d.regs reg) = some d' ∧ Rel m c' d' := by
  have two : ∀ {o : Option Src} {f : Src → Src}, (do return f (← o)) = some S → ∃ A, o = some A ∧ f A = S := by
    intro o f h
    obtain ⟨A, hA, h⟩ := Option.bind_eq_some_iff.1 h
    exact ⟨A, hA, Option.some.inj h⟩
  unfold messageOf at hs
  rcases iteSome hs with ⟨hx, hs⟩ | ⟨-, hs⟩
  · rw [hx]
    obtain ⟨A, hA, hs⟩ := Option.bind_eq_some_iff.1 hs
    obtain ⟨B, hB, rfl⟩ := two hs
    rw [msgNode_if]; exact if_sim H hzv hzb hA hB fv fb hr hc
  rcases iteSome hs with ⟨hx, hs⟩ | ⟨-, hs⟩
  · rw [hx]
    obtain ⟨A, hA, hs⟩ := Option.bind_eq_some_iff.1 hs
    obtain ⟨B, hB, rfl⟩ := two hs
    rw [msgNode_elsif]; exact elsif_sim H hzv hzb hA hB fv fb hr hc
  rcases iteSome hs with ⟨hx, hs⟩ | ⟨-, hs⟩
  · rw [hx]
    rcases iteSome hs with ⟨hn, hs⟩ | ⟨-, hs⟩
    · obtain ⟨B, hB, rfl⟩ := two hs
      rw [msgNode_else]; exact else_sim H hzb hB fb hr hc
    · contradiction
  rcases iteSome hs with ⟨hx, hs⟩ | ⟨-, hs⟩
  · rw [hx]
    obtain ⟨A, hA, hs⟩ := Option.bind_eq_some_iff.1 hs
    obtain ⟨B, hB, rfl⟩ := two hs
    rw [msgNode_while]; exact while_sim H hzv hzb hA hB fv fb hr hc
  rcases iteSome hs with ⟨hx, hs⟩ | ⟨-, hs⟩
  · rw [hx]
    rcases iteSome hs with ⟨hn, hs⟩ | ⟨-, hs⟩
    · obtain ⟨B, hB, rfl⟩ := two hs
      rw [msgNode_loop]; exact loop_sim H hzb ((isNil_absent v).trans hn) hB fb hr hc
    · contradiction
  rcases iteSome hs with ⟨hx, hs⟩ | ⟨hnb, hs⟩
  · contradiction
  have hb : isNil b = true := by rw [isNil_absent]; simpa using hnb
  rcases iteSome hs with ⟨hx, hs⟩ | ⟨-, hs⟩
  · rw [hx, msgNode_return]
    rcases iteSome hs with ⟨hn, hs⟩ | ⟨-, hs⟩
    · obtain rfl := Option.some.inj hs
      simp only [comp, Option.some.injEq] at hc
      subst hc
      have hv : v = .imm PN_NIL := by
        cases v with
        | imm w => have : w = PN_NIL := by simpa [absent] using hn
                   rw [this]
        | _ => simp [absent] at hn
      subst hv
      exact ⟨_, rfl, regs_noop (((hr.regs reg).asm rfl _ _).asm rfl _ _) (regs_has c reg)⟩
    · obtain ⟨A, hA, rfl⟩ := two hs
      exact ret_sim H hzv hA fv hr hc
  rcases iteSome hs with ⟨-, hs⟩ | ⟨hna, hs⟩
  · rcases iteSome hs with ⟨hn, hs⟩ | ⟨-, hs⟩
    · contradiction
    · obtain ⟨A, hA, rfl⟩ := two hs
      exact call_sim H hzv hA fv hb hr hc
  have hv : isNil v = true := by rw [isNil_absent]; simpa using hna
  rcases iteSome hs with ⟨hx, hs⟩ | ⟨-, hs⟩
  · rw [hx]
    obtain rfl := Option.some.inj hs
    rw [msgNode_break]; exact jump_sim true hr hc
  rcases iteSome hs with ⟨hx, hs⟩ | ⟨-, hs⟩
  · rw [hx]
    obtain rfl := Option.some.inj hs
    rw [msgNode_continue]; exact jump_sim false hr hc
  rcases iteSome hs with ⟨hx, hs⟩ | ⟨-, hs⟩
  · rw [hx]
    obtain rfl := Option.some.inj hs
    simp only [comp, Option.some.injEq] at hc
    subst hc
    rw [msgNode_self]
    exact ⟨_, rfl, regs_noop ((hr.regs reg).asm rfl _ _) (regs_has c reg)⟩
  rcases iteSome hs with ⟨hx, hs⟩ | ⟨-, hs⟩
  · contradiction
  · obtain rfl := Option.some.inj hs
    exact var_sim hv hb hr hc

/-- Messages, one deeper. -/
theorem msg_step (H : Sim dl n) {t S} (hz : sizeOf t ≤ n + 1) (hs : messageSrc t = some S) (hf : Fine t = true) {m c d c' count reg} (hr : Rel m c d)
    (hc : comp S false count reg c = some c') : ∃ d', asmb dl (n + 1) t count reg d = some d' ∧ Rel m c' d' := by
  unfold messageSrc at hs
  split at hs
  · rename_i w b c2
    split at hs
    · rename_i ha
      obtain rfl := Option.some.inj hs
      have hb : isNil b = true := by rw [isNil_absent]; simp only [Bool.and_eq_true] at ha; exact ha.1
      refine ⟨(d.regs reg).load reg (.imm w), if_pos hb, ?_⟩
      have := (hr.regs reg).load reg w
      simp only [comp] at hc
      split at hc
      · rename_i hi
        rw [if_pos hi] at this
        obtain rfl := Option.some.inj hc
        exact this
      · rename_i hi
        rw [if_neg hi] at this
        obtain rfl := Option.some.inj hc
        exact this
    · contradiction
  · rename_i a b c2
    split at hs
    · obtain ⟨A, hA, hs⟩ := Option.bind_eq_some_iff.1 hs
      obtain rfl := Option.some.inj hs
      simp only [comp] at hc
      split at hc
      · contradiction
      · rename_i c1 h1
        obtain rfl := Option.some.inj hc
        obtain ⟨d1, e1, r1⟩ := arg_sim H (size_node hz).1 hA (Fine_node hf).2.1 (hr.regs reg) (.inl (regs_has c reg)) h1
        refine ⟨d1.asm .not reg reg, ?_, r1.asm rfl _ _⟩
        show Option.bind (pnArg (asmb dl n) a reg (d.regs reg)) _ = _
        rw [e1]; rfl
    · contradiction
  · rename_i a b c2
    split at hs
    · obtain ⟨A, hA, hs⟩ := Option.bind_eq_some_iff.1 hs
      obtain rfl := Option.some.inj hs
      simp only [comp] at hc
      split at hc
      · contradiction
      · rename_i c1 h1
        obtain rfl := Option.some.inj hc
        obtain ⟨d1, e1, r1⟩ := arg_sim H (size_node hz).1 hA (Fine_node hf).2.1 (hr.regs reg) (.inl (regs_has c reg)) h1
        refine ⟨d1.asm .bitn reg reg, ?_, r1.asm rfl _ _⟩
        show Option.bind (pnArg (asmb dl n) a reg (d.regs reg)) _ = _
        rw [e1]; rfl
    · contradiction
  · rename_i x b c2 k d0
    split at hs
    · obtain rfl := Option.some.inj hs
      simp only [comp, Option.some.injEq] at hc
      subst hc
      obtain ⟨v1, r1⟩ := (hr.regs reg).var x
      refine ⟨incr (.str x) k reg (d.regs reg), rfl, ?_⟩
      unfold incr
      generalize (d.regs reg).var (.str x) = w at *
      generalize (c.regs reg).bind x = w' at *
      obtain ⟨dw, up, num⟩ := w
      obtain ⟨cw, up', num'⟩ := w'
      simp only [Prod.mk.injEq] at v1 r1
      obtain ⟨rfl, rfl⟩ := v1
      dsimp only
      cases hi : isInt k with
      | false =>
        simp only [Bool.false_eq_true, if_false]
        exact ((((r1.asm (opcode_get up) _ _).asm rfl _ _).asm rfl _ _).asm (opcode_set up) _ _).regs _
      | true =>
        simp only [if_true]
        exact ((((((r1.asm (opcode_get up) _ _).wide _).asm rfl _ _).asm rfl _ _).asm rfl _ _).asm (opcode_set up) _ _).regs _
    · contradiction
  · exact msgNode_sim H (size_node hz).2.1 (size_node hz).2.2 (Fine_node hf).2.2.1 (Fine_node hf).2.2.2 hs hr hc
  · rename_i a b c2
    split at hs
    · obtain ⟨ps, hp, hs⟩ := Option.bind_eq_some_iff.1 hs
      obtain ⟨B, hB, hs⟩ := Option.bind_eq_some_iff.1 hs
      obtain rfl := Option.some.inj hs
      refine fn_sim H (size_node hz).2.1 hp hB (Fine_node hf).2.2.1 (hr.regs reg) (regs_has c reg) ?_
      rw [← hc]
      simp only [comp, noop (regs_has c reg)]
    · contradiction
  · contradiction

theorem sim (dl : List (BitVec 8) → Bool) : ∀ n, Sim dl n
  | 0 => by
    have h : ∀ t : Tree, ¬ sizeOf t ≤ 0 := by intro t; cases t <;> simp
    exact ⟨fun hz => absurd hz (h _), fun hz => absurd hz (h _), fun hz => absurd hz (h _)⟩
  | n + 1 => ⟨src_step (sim dl n), msg_step (sim dl n), blk_sim (sim dl n)⟩

/-- The whole compiler makes of a program of the fragment what the compiler of the fragment does. -/
theorem compile_alike {t : Tree} {S : Src} {p : Vm.Proto} (hs : programOf t = some S) (hf : Fine t = true) (hp : Compile.compile S = some p) {fuel : Nat} (hn : sizeOf t ≤ fuel) :
    ∃ f, compile dl fuel t = some f ∧ Alike p f := by
  unfold programOf at hs
  split at hs
  · rename_i t b c2
    split at hs
    · obtain ⟨n, rfl⟩ : ∃ n, fuel = n + 1 := ⟨fuel - 1, by simp only [Tree.node.sizeOf_spec] at hn; omega⟩
      unfold Compile.compile Compile.compileFn at hp
      split at hp
      · contradiction
      · rename_i c' hc
        obtain rfl := Option.some.inj hp
        have r0 := rel_open (ps := []) (o := []) (0 + 1) trivial
        have key : ∃ d', asmb dl (n + 1) (.node .code t b c2) 0 0 (CSt.open [] []) = some d' ∧ Rel 0 c' d' := by
          rw [asmb]
          rcases stmts_sim (sim dl n) (size_node hn).1 hs (Fine_node hf).2.1 r0 hc with ⟨h1, rfl⟩ | ⟨rfl, rfl⟩ | ⟨l, d', hl, rfl, h1, h2⟩
          · exact ⟨_, node_code_nil h1, r0.regs 0⟩
          · exact ⟨_, node_code_tup, r0.regs 0⟩
          · refine ⟨d', ?_, h2⟩
            rw [node_code_tup]
            cases l with
            | nil => exact absurd rfl hl
            | cons a l => rw [each] at h1 ⊢; rw [asmb_regs]; exact h1
        obtain ⟨d', e, r⟩ := key
        refine ⟨d'.close [], ?_, rel_close r 0 (ps := []) (List.nil_prefix)⟩
        unfold compile compileFn
        show Option.map _ (Option.bind (asmb dl (n + 1) (.node .code t b c2) 0 0 (CSt.open [] [])) _) = _
        rw [e]; rfl
    · contradiction
  · contradiction

end Potion.CompileAll
