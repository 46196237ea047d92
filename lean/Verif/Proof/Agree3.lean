import Verif.Proof.Agree2
import Verif.Model.Lower
/-! The two models of the compiler agree: lists, blocks, operands, arguments, functions. -/
namespace Potion.CompileAll
open Potion Potion.Vm Potion.Peg
open Potion.Compile (Name Src u8 bytesOf MAX_JUMPS comp sourceOf messageSrc listSrc argsSrc argsOf blockSrc chainOf stmtsOf seqOf paramsOf namesOf absent)

theorem isNil_absent (t : Tree) : isNil t = absent t := by cases t <;> rfl

section
variable (dl : List (BitVec 8) → Bool) (n : Nat)

/-- Sources, messages and blocks are compiled alike. -/
structure Sim : Prop where
  src : ∀ {t S}, sizeOf t ≤ n → sourceOf t = some S → Fine t = true → ∀ {m c d c' reg}, Rel m c d → comp S false 0 reg c = some c' →
    ∃ d', asmb dl n t 0 reg d = some d' ∧ Rel m c' d'
  msg : ∀ {t S}, sizeOf t ≤ n → messageSrc t = some S → Fine t = true → ∀ {m c d c' count reg}, Rel m c d → comp S false count reg c = some c' →
    ∃ d', asmb dl n t count reg d = some d' ∧ Rel m c' d'
  blk : ∀ {t S}, sizeOf t ≤ n → blockSrc t = some S → Fine t = true → ∀ {m c d c' reg}, Rel m c d → comp S false 0 reg c = some c' →
    ∃ d', asmb dl n t 0 reg d = some d' ∧ Rel m c' d'
end

variable {dl : List (BitVec 8) → Bool} {n : Nat}

theorem asmb_regs (t : Tree) (count reg : Nat) (d : CSt) : asmb dl n t count reg (d.regs reg) = asmb dl n t count reg d := by
  cases n with
  | zero => rfl
  | succ n => cases t <;> simp only [asmb, regs_regs']

theorem FineAll_cons {a : Tree} {l : List Tree} (h : FineAll (a :: l) = true) : Fine a = true ∧ FineAll l = true := by
  simpa [FineAll] using h

theorem size_cons {a : Tree} {l : List Tree} (h : sizeOf (a :: l) ≤ n) : sizeOf a ≤ n ∧ sizeOf l ≤ n := by
  simp only [List.cons.sizeOf_spec] at h; omega

theorem node_block_nil {rec : Rec} {a b c : Tree} {count reg : Nat} {st : CSt} (h : isNil a = true) : node dl rec .block a b c count reg st = some st := if_pos h
theorem node_block_tup {rec : Rec} {l : List Tree} {b c : Tree} {count reg : Nat} {st : CSt} :
    node dl rec .block (.tup l) b c count reg st = each (fun _ v => rec v 0 reg) 0 l st := rfl
theorem node_code_nil {rec : Rec} {a b c : Tree} {count reg : Nat} {st : CSt} (h : isNil a = true) : node dl rec .code a b c count reg st = some st := if_pos h
theorem node_code_tup {rec : Rec} {l : List Tree} {b c : Tree} {count reg : Nat} {st : CSt} :
    node dl rec .code (.tup l) b c count reg st = each (fun _ v => rec v 0 reg) 0 l st := rfl
theorem argAsmb_nil {rec : Rec} {a b c : Tree} {reg : Nat} {inc : Bool} {st : CSt} (h : isNil a = true) : argAsmb rec (.node .list a b c) reg inc st = some (st, reg) := if_pos h
theorem argAsmb_tup {rec : Rec} {l : List Tree} {b c : Tree} {reg : Nat} {st : CSt} :
    argAsmb rec (.node .list (.tup l) b c) reg false st = (each (fun _ v => rec v 0 reg) 0 l st).map fun st => (st, reg) := rfl
theorem argAsmb_inc {rec : Rec} {l : List Tree} {b c : Tree} {reg : Nat} {st : CSt} :
    argAsmb rec (.node .list (.tup l) b c) reg true st = argItems rec reg l.length l reg st := rfl
theorem pnArg_nil {rec : Rec} {a b c b' c' : Tree} {l : List Tree} {reg : Nat} {st : CSt} (h : isNil a = true) :
    pnArg rec (.node .expr (.tup (.node .list a b c :: l)) b' c') reg st = some st := if_pos h
theorem pnArg_tup {rec : Rec} {vs : List Tree} {b c b' c' : Tree} {l : List Tree} {reg : Nat} {st : CSt} :
    pnArg rec (.node .expr (.tup (.node .list (.tup vs) b c :: l)) b' c') reg st = each (fun _ v => rec v 0 reg) 0 vs st := rfl

/-- Statements, at least one. -/
theorem list_sim (H : Sim dl n) {reg : Nat} : ∀ (l : List Tree) (i : Nat) {S m c d c'}, l ≠ [] → sizeOf l ≤ n → seqOf l = some S → FineAll l = true → Rel m c d →
    comp S false 0 reg c = some c' → ∃ d', each (fun _ v => asmb dl n v 0 reg) i l d = some d' ∧ Rel m c' d'
  | [], _, _, _, _, _, _, h, _, _, _, _, _ => absurd rfl h
  | [a], i, S, m, c, d, c', _, hz, hs, hf, hr, hc => by
    rw [seqOf] at hs
    obtain ⟨d', h1, h2⟩ := H.src (size_cons hz).1 hs (FineAll_cons hf).1 hr hc
    exact ⟨d', by rw [each, h1]; rfl, h2⟩
  | a :: b :: l, i, S, m, c, d, c', _, hz, hs, hf, hr, hc => by
    rw [seqOf] at hs
    · obtain ⟨A, hA, hs⟩ := Option.bind_eq_some_iff.1 hs
      obtain ⟨B, hB, hs⟩ := Option.bind_eq_some_iff.1 hs
      obtain rfl := Option.some.inj hs
      simp only [comp] at hc
      split at hc
      · contradiction
      · rename_i c1 h1
        obtain ⟨d1, e1, r1⟩ := H.src (size_cons hz).1 hA (FineAll_cons hf).1 (hr.regs reg) h1
        rw [asmb_regs] at e1
        obtain ⟨d2, e2, r2⟩ := list_sim H (b :: l) (i + 1) (by simp) (size_cons hz).2 hB (FineAll_cons hf).2 r1 hc
        exact ⟨d2, by rw [each, e1]; exact e2, r2⟩
    · simp

/-- The messages of an expression. -/
theorem chain_sim (H : Sim dl n) {reg : Nat} : ∀ (l : List Tree) (i : Nat) {S m c d c'}, sizeOf l ≤ n → chainOf l = some S → FineAll l = true → Rel m c d → reg < c.stack →
    comp S false i reg c = some c' → ∃ d', each (fun i v => asmb dl n v i reg) i l d = some d' ∧ Rel m c' d'
  | [], i, S, m, c, d, c', _, hs, _, hr, hg, hc => by
    rw [chainOf] at hs
    obtain rfl := Option.some.inj hs
    rw [comp, noop hg] at hc
    obtain rfl := Option.some.inj hc
    exact ⟨d, rfl, hr⟩
  | a :: l, i, S, m, c, d, c', hz, hs, hf, hr, hg, hc => by
    rw [chainOf] at hs
    obtain ⟨A, hA, hs⟩ := Option.bind_eq_some_iff.1 hs
    obtain ⟨B, hB, hs⟩ := Option.bind_eq_some_iff.1 hs
    obtain rfl := Option.some.inj hs
    simp only [comp] at hc
    rw [noop hg] at hc
    split at hc
    · contradiction
    · rename_i c1 h1
      obtain ⟨d1, e1, r1⟩ := H.msg (size_cons hz).1 hA (FineAll_cons hf).1 hr h1
      have := (Compile.comp_up _ _ _ _ _ _ h1).rest.stack
      obtain ⟨d2, e2, r2⟩ := chain_sim H l (i + 1) (size_cons hz).2 hB (FineAll_cons hf).2 r1 (by omega) hc
      exact ⟨d2, by rw [each, e1]; exact e2, r2⟩

/-- What `listSrc` and `blockSrc` have in common. -/
theorem stmts_sim (H : Sim dl n) {t : Tree} {S m c d c' reg} (hz : sizeOf t ≤ n) (hs : stmtsOf t = some S) (hf : Fine t = true) (hr : Rel m c d)
    (hc : comp S false 0 reg c = some c') :
    (isNil t = true ∧ c' = c.regs reg) ∨ (t = .tup [] ∧ c' = c.regs reg) ∨
      ∃ l d', l ≠ [] ∧ t = .tup l ∧ each (fun _ v => asmb dl n v 0 reg) 0 l d = some d' ∧ Rel m c' d' := by
  cases t with
  | imm w =>
    rw [stmtsOf] at hs
    split at hs
    · rename_i hw
      obtain rfl := Option.some.inj hs
      rw [comp] at hc
      exact .inl ⟨by simp [isNil, hw], (Option.some.inj hc).symm⟩
    · contradiction
  | tup l =>
    rw [stmtsOf] at hs
    cases l with
    | nil =>
      rw [seqOf] at hs
      obtain rfl := Option.some.inj hs
      rw [comp] at hc
      exact .inr (.inl ⟨rfl, (Option.some.inj hc).symm⟩)
    | cons a l =>
      obtain ⟨d', h1, h2⟩ := list_sim H (a :: l) 0 (by simp) (by simp only [Tree.tup.sizeOf_spec] at hz; omega) hs (by simpa [Fine] using hf) hr hc
      exact .inr (.inr ⟨_, d', by simp, rfl, h1, h2⟩)
  | _ => simp [stmtsOf] at hs

/-- A block, one deeper. -/
theorem blk_sim (H : Sim dl n) {t S} (hz : sizeOf t ≤ n + 1) (hs : blockSrc t = some S) (hf : Fine t = true) {m c d c' reg} (hr : Rel m c d)
    (hc : comp S false 0 reg c = some c') : ∃ d', asmb dl (n + 1) t 0 reg d = some d' ∧ Rel m c' d' := by
  unfold blockSrc at hs
  split at hs
  · rename_i t b c2
    split at hs
    · simp only [Tree.node.sizeOf_spec] at hz
      have hf' : Fine t = true := by simp only [Fine, Bool.and_eq_true] at hf; exact hf.1.1.2
      rw [asmb]
      rcases stmts_sim H (by omega) hs hf' hr hc with ⟨h1, rfl⟩ | ⟨rfl, rfl⟩ | ⟨l, d', hl, rfl, h1, h2⟩
      · exact ⟨_, node_block_nil h1, hr.regs reg⟩
      · exact ⟨_, node_block_tup, hr.regs reg⟩
      · refine ⟨d', ?_, h2⟩
        rw [node_block_tup]
        cases l with
        | nil => exact absurd rfl hl
        | cons a l => rw [each] at h1 ⊢; rw [asmb_regs]; exact h1
    · contradiction
  · contradiction

/-- The list of a message whose arguments are compiled one after the other into one register. -/
theorem cond_sim (H : Sim dl n) {v S} (hz : sizeOf v ≤ n + 1) (hs : listSrc v = some S) (hf : Fine v = true) {m c d c' reg} (hr : Rel m c d)
    (hc : comp S false 0 reg c = some c') : isNil v = false ∧
    ∃ d', argAsmb (asmb dl n) v reg false d = some (d', reg) ∧ (Rel m c' d' ∨ c' = c.regs reg ∧ d' = d) := by
  unfold listSrc at hs
  split at hs
  · rename_i t b c2
    split at hs
    · simp only [Tree.node.sizeOf_spec] at hz
      have hf' : Fine t = true := by simp only [Fine, Bool.and_eq_true] at hf; exact hf.1.1.2
      refine ⟨rfl, ?_⟩
      rcases stmts_sim H (by omega) hs hf' hr hc with ⟨h1, rfl⟩ | ⟨rfl, rfl⟩ | ⟨l, d', hl, rfl, h1, h2⟩
      · exact ⟨_, argAsmb_nil h1, .inr ⟨rfl, rfl⟩⟩
      · exact ⟨d, argAsmb_tup, .inr ⟨rfl, rfl⟩⟩
      · exact ⟨d', by rw [argAsmb_tup, h1]; rfl, .inl h2⟩
    · contradiction
  · contradiction

/-- Whether or not the list was empty, the register is reserved in the end. -/
theorem cond_settle {m c d c' d' reg} (hr : Rel m c d) (h : Rel m c' d' ∨ c' = c.regs reg ∧ d' = d) :
    ∃ m', Rel m' c' d' ∧ ∀ {c2 d2}, Rel m' c2 d2 → Rel m (c2.regs reg) (d2.regs reg) := by
  rcases h with h | ⟨rfl, rfl⟩
  · exact ⟨m, h, fun h => h.regs _⟩
  · exact ⟨_, hr.owe reg, fun h => h.pay⟩

theorem comp_arg {S : Src} (h : ∀ a, S ≠ .paren a) (count reg : Nat) (c : Compile.CSt) : comp S true count reg c = comp S false count reg c := by
  cases S <;> first | rfl | exact absurd rfl (h _)

/-- The code of an operand. -/
theorem arg_sim (H : Sim dl n) {t S} (hz : sizeOf t ≤ n) (hs : sourceOf t = some S) (hf : Fine t = true) {m c d c' reg} (hr : Rel m c d)
    (he : reg < c.stack ∨ emptyParens t = false) (hc : comp S true 0 reg c = some c') : ∃ d', pnArg (asmb dl n) t reg d = some d' ∧ Rel m c' d' := by
  by_cases hp : ∃ l b c2 b' c2', t = .node .expr (.tup [.node .list l b c2]) b' c2'
  · obtain ⟨l, b, c2, b', c2', rfl⟩ := hp
    rw [sourceOf] at hs
    split at hs
    · obtain ⟨S', hS, hs⟩ := Option.bind_eq_some_iff.1 hs
      obtain rfl := Option.some.inj hs
      rw [comp, if_pos rfl] at hc
      have hf' : Fine l = true := by
        simp only [Fine, FineAll, Bool.and_eq_true] at hf; exact hf.1.1.2.1.1.1.2
      have hz' : sizeOf l ≤ n := by simp only [Tree.node.sizeOf_spec, Tree.tup.sizeOf_spec, List.cons.sizeOf_spec] at hz; omega
      rcases stmts_sim H hz' hS hf' hr hc with ⟨h1, rfl⟩ | ⟨rfl, rfl⟩ | ⟨l, d', hl, rfl, h1, h2⟩
      · refine ⟨d, pnArg_nil h1, ?_⟩
        have hg : reg < c.stack := he.resolve_right fun e => by
          cases l <;> simp_all [emptyParens, isNil]
        rw [noop hg]; exact hr
      · refine ⟨d, pnArg_tup, ?_⟩
        have hg : reg < c.stack := he.resolve_right (by simp [emptyParens])
        rw [noop hg]; exact hr
      · exact ⟨d', by rw [pnArg_tup, h1], h2⟩
    · contradiction
  · have hS : ∀ a, S ≠ .paren a := by
      rintro a rfl
      unfold sourceOf at hs
      split at hs
      · exact hp ⟨_, _, _, _, _, rfl⟩
      all_goals (try split at hs) <;> (try split at hs) <;> simp_all [Option.bind_eq_some_iff]
    rw [comp_arg hS] at hc
    obtain ⟨d', h1, h2⟩ := H.src hz hs hf hr hc
    refine ⟨d', ?_, h2⟩
    rw [← h1]
    unfold pnArg
    split
    · rename_i l b c2 tl b' c2'
      cases tl with
      | nil => exact absurd ⟨_, _, _, _, _, rfl⟩ hp
      | cons x tl =>
        rw [sourceOf] at hs
        · split at hs
          · simp [messageSrc] at hs
          · contradiction
        · simp
    · rfl
    · rename_i a b c2 h3 h4
      cases a with
      | tup l =>
        cases l with
        | nil => simp [sourceOf, Compile.binOf] at hs
        | cons a l =>
          cases a with
          | node => exact absurd rfl (h4 _ _ _ _ _)
          | _ => simp [sourceOf, messageSrc] at hs
      | _ => simp [sourceOf, Compile.binOf] at hs
    · rfl
    · cases t <;> simp_all [sourceOf]

end Potion.CompileAll
