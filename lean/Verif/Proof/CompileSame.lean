import Verif.Proof.CompileSize
import Verif.Spec.Text
/-! Trees with the same code. -/
namespace Potion.Compile
open Potion Potion.Vm Potion.Spec

/-- Nothing the compiler looks at differs. -/
structure Alike (a b : Src) : Prop where
  comp : ∀ arg count reg st, comp a arg count reg st = comp b arg count reg st
  assign : isAssign a = isAssign b
  argc : argc a = argc b

theorem Alike.refl (a : Src) : Alike a a := ⟨fun _ _ _ _ => rfl, rfl, rfl⟩
theorem Alike.of_eq {a b : Src} (h : a = b) : Alike a b := h ▸ .refl a
theorem Alike.symm {a b : Src} (h : Alike a b) : Alike b a := ⟨fun _ _ _ _ => (h.comp ..).symm, h.assign.symm, h.argc.symm⟩
theorem Alike.trans {a b c : Src} (h : Alike a b) (h' : Alike b c) : Alike a c :=
  ⟨fun _ _ _ _ => (h.comp ..).trans (h'.comp ..), h.assign.trans h'.assign, h.argc.trans h'.argc⟩

section
variable {a a' b b' : Src} (ha : Alike a a') (hb : Alike b b')
include ha
theorem Alike.paren : Alike (.paren a) (.paren a') := ⟨fun _ _ _ _ => by simp only [Compile.comp, ha.comp], rfl, rfl⟩
theorem Alike.assigns {x} : Alike (.assign x a) (.assign x a') := ⟨fun _ _ _ _ => by simp only [Compile.comp, ha.comp], rfl, rfl⟩
theorem Alike.not : Alike (.not a) (.not a') := ⟨fun _ _ _ _ => by simp only [Compile.comp, ha.comp], rfl, rfl⟩
theorem Alike.wavy : Alike (.wavy a) (.wavy a') := ⟨fun _ _ _ _ => by simp only [Compile.comp, ha.comp], rfl, rfl⟩
theorem Alike.elsem : Alike (.elsem a) (.elsem a') := ⟨fun _ _ _ _ => by simp only [Compile.comp, ha.comp], rfl, rfl⟩
theorem Alike.loopm : Alike (.loopm a) (.loopm a') := ⟨fun _ _ _ _ => by simp only [Compile.comp, ha.comp], rfl, rfl⟩
theorem Alike.retv : Alike (.retv a) (.retv a') := ⟨fun _ _ _ _ => by simp only [Compile.comp, ha.comp], rfl, rfl⟩
theorem Alike.fn {ps} : Alike (.fn ps a) (.fn ps a') := ⟨fun _ _ _ _ => by simp only [Compile.comp, ha.comp], rfl, rfl⟩
theorem Alike.call {x} : Alike (.call x a) (.call x a') := ⟨fun _ _ _ _ => by simp only [Compile.comp, ha.comp, ha.argc], rfl, rfl⟩
include hb
theorem Alike.seq : Alike (.seq a b) (.seq a' b') := ⟨fun _ _ _ _ => by simp only [Compile.comp, ha.comp, hb.comp], rfl, rfl⟩
theorem Alike.chain : Alike (.chain a b) (.chain a' b') := ⟨fun _ _ _ _ => by simp only [Compile.comp, ha.comp, hb.comp], rfl, rfl⟩
theorem Alike.bin {op} : Alike (.bin op a b) (.bin op a' b') := ⟨fun _ _ _ _ => by simp only [Compile.comp, ha.comp, hb.comp], rfl, rfl⟩
theorem Alike.and : Alike (.and a b) (.and a' b') := ⟨fun _ _ _ _ => by simp only [Compile.comp, ha.comp, hb.comp], rfl, rfl⟩
theorem Alike.or : Alike (.or a b) (.or a' b') := ⟨fun _ _ _ _ => by simp only [Compile.comp, ha.comp, hb.comp], rfl, rfl⟩
theorem Alike.ifm : Alike (.ifm a b) (.ifm a' b') := ⟨fun _ _ _ _ => by simp only [Compile.comp, ha.comp, hb.comp], rfl, rfl⟩
theorem Alike.elsifm : Alike (.elsifm a b) (.elsifm a' b') := ⟨fun _ _ _ _ => by simp only [Compile.comp, ha.comp, hb.comp], rfl, rfl⟩
theorem Alike.whilem : Alike (.whilem a b) (.whilem a' b') := ⟨fun _ _ _ _ => by simp only [Compile.comp, ha.comp, hb.comp], rfl, rfl⟩
theorem Alike.acons : Alike (.acons a b) (.acons a' b') :=
  ⟨fun _ _ _ _ => by simp only [Compile.comp, ha.comp, hb.comp, ha.assign], rfl, by simp only [Compile.argc, hb.argc]⟩
end

theorem regs_id {st : CSt} {reg : Nat} (h : reg < st.stack) : st.regs reg = st := if_neg (by omega)
theorem regs_regs (st : CSt) (reg : Nat) : (st.regs reg).regs reg = st.regs reg := regs_id (regs_lt st reg)

/-- Statements are a list. -/
theorem Alike.assoc (a b c : Src) : Alike (.seq (.seq a b) c) (.seq a (.seq b c)) := by
  refine ⟨fun arg count reg st => ?_, rfl, rfl⟩
  simp only [Compile.comp, regs_regs]
  cases h : Compile.comp a false 0 reg (st.regs reg) with
  | none => rfl
  | some s1 =>
    have := comp_grow h
    have h2 := regs_lt st reg
    simp only [regs_id (Nat.lt_of_lt_of_le h2 this)]

/-- What follows an `if`: the compiler does not look at its place in the message chain. -/
theorem tail_count : ∀ (r : Else) (arg count reg st), comp (toTail r) arg count reg st = comp (toTail r) false 0 reg st
  | .none, _, _, _, _ => by simp only [toTail, comp]
  | .els a, _, _, _, _ => by simp only [toTail, wrap, comp]
  | .elsif c a r, arg, count, reg, st => by
    simp only [toTail, comp]
    split
    · rfl
    · rw [tail_count r, tail_count r false (0 + 1)]

theorem comp_chain (a b : Src) (arg count reg st) :
    comp (.chain a b) arg count reg st = (comp a false count reg (st.regs reg)).bind (comp b false (count + 1) reg) := by
  rw [comp]; cases comp a false count reg (st.regs reg) <;> rfl
theorem comp_seq (a b : Src) (arg count reg st) :
    comp (.seq a b) arg count reg st = (comp a false 0 reg (st.regs reg)).bind (comp b false 0 reg) := by
  rw [comp]; cases comp a false 0 reg (st.regs reg) <;> rfl

theorem tail_append : ∀ (r1 r2 : Else) (reg st), r1.isOpen = true → reg < st.stack →
    comp (toTail (r1.append r2)) false 0 reg st = (comp (toTail r1) false 0 reg st).bind (comp (toTail r2) false 0 reg)
  | .none, r2, reg, st, _, h => by simp only [Else.append, toTail, comp, regs_id h, Option.bind_some]
  | .els a, _, _, _, h, _ => by simp [Else.isOpen] at h
  | .elsif c a r, r2, reg, st, ho, h => by
    simp only [Else.isOpen] at ho
    simp only [Else.append, toTail, comp_chain, regs_id h]
    cases h1 : comp (.elsifm (toSrc c) (toSrc a)) false 0 reg st with
    | none => rfl
    | some s1 =>
      have := comp_grow h1
      simp only [Option.bind_some, tail_count _ false (0 + 1)]
      exact tail_append r r2 reg s1 ho (by omega)

/-- An `else` may stand in a statement of its own. -/
theorem Alike.split (m : Src) (r1 r2 : Else) (h : r1.isOpen = true) (hm : ∀ count reg st, Compile.comp m false count reg st = Compile.comp m false 0 reg st) :
    Alike (.seq (.chain m (toTail r1)) (toTail r2)) (.chain m (toTail (r1.append r2))) := by
  refine ⟨fun arg count reg st => ?_, rfl, rfl⟩
  simp only [comp_chain, comp_seq, regs_regs, hm count]
  have h0 := regs_lt st reg
  cases h1 : Compile.comp m false 0 reg (st.regs reg) with
  | none => rfl
  | some s1 =>
    have := comp_grow h1
    simp only [Option.bind_some, tail_count _ false (count + 1), tail_count _ false (0 + 1)]
    rw [tail_append r1 r2 reg s1 h (by omega)]

theorem Alike.splitIf (c a : Src) (r1 r2 : Else) (h : r1.isOpen = true) :
    Alike (.seq (.chain (.ifm c a) (toTail r1)) (toTail r2)) (.chain (.ifm c a) (toTail (r1.append r2))) :=
  .split _ r1 r2 h fun _ _ _ => by simp only [Compile.comp]
theorem Alike.splitElsif (c a : Src) (r1 r2 : Else) (h : r1.isOpen = true) :
    Alike (.seq (.chain (.elsifm c a) (toTail r1)) (toTail r2)) (.chain (.elsifm c a) (toTail (r1.append r2))) :=
  .split _ r1 r2 h fun _ _ _ => by simp only [Compile.comp]

theorem Alike.splitTail (r1 r2 : Else) (h : r1.isOpen = true) : Alike (.seq (toTail r1) (toTail r2)) (toTail (r1.append r2)) := by
  cases r1 with
  | none =>
    refine ⟨fun arg count reg st => ?_, ?_, ?_⟩
    · simp only [toTail, Else.append, comp_seq, Compile.comp, regs_regs, Option.bind_some, tail_count r2 arg count]
      cases r2 <;> simp only [toTail, wrap, Compile.comp, regs_regs]
    · cases r2 <;> rfl
    · cases r2 <;> rfl
  | els a => simp [Else.isOpen] at h
  | elsif c a r => exact .splitElsif _ _ r r2 h

theorem Alike.compile {a b : Src} (h : Alike a b) : compile a = compile b := by
  unfold Compile.compile compileFn; rw [h.comp]

end Potion.Compile
