import Verif.Proof.NativeCode
import Verif.Props.Jit
import Verif.Props.Syntax
/-!
C59. A program run in the default mode: its text is parsed, compiled, machine code is generated for it, and the processor
runs that.

`IsTextOf` (Spec/Syntax.lean) says which texts a program has, `eval` (Spec/Lang.lean) what it means, `native` and `nativeOk`
(Spec/Native.lean) what is claimed and of which programs, `Helpers`, `Entry` and `Returned` (Spec/Jit.lean) what a call is.
-/
namespace Potion.Compile
open Potion Potion.Vm Potion.Spec Potion.Jit Potion.X86

theorem len_le {p : Prog} {f : Proto} (h : compile (toSrc p) = some f) : f.len ≤ size p + 1 := by
  unfold compile compileFn at h
  split at h
  · simp at h
  · rename_i st hst
    cases h
    have := (comp_size (N := size p + 1) (K := vars p + depth p + 4) (toSrc p) _ _ _ _ _ hst (by rw [cost_toSrc])
      (Nat.le_of_eq (by rw [uses_toSrc, width_toSrc]))).len
    rw [cost_toSrc] at this
    simp only [CSt.open, CSt.new] at this
    simp only [CSt.close, CSt.asm]
    omega

/-- C59: the machine code generated for the text of a program returns the value of the program to its caller, in `%rax`,
having changed nothing the caller may rely on: whatever is on the stack and in the other registers. Partial: programs without functions
(`nativeOk`), what `native` claims; `guarded` as in C26; at most 1023 instructions. See the counterexamples here and in C58. -/
theorem C59_run_partial (E : Env) {text : List (BitVec 8)} {p : Prog} (ht : IsTextOf text p)
    (hs : (inScope isWord isGlobal none false false p []).isSome) (hj : jumps p ≤ MAX_JUMPS) (hd : depth p ≤ 255)
    (hg : guarded false p = true) (hn : nativeOk 0 p = true) (hf : fits p 0) (hl : size p ≤ 1023) :
    ∃ fuel f code, (∀ n, fuel ≤ n → compileText n text = some f) ∧ jit E f = some code ∧
      ∀ loc H ext cl tup me m, Helpers E ext H cl tup Plainly → Entry E f loc H [] cl tup me [] [] m →
      ∀ n v env', (eval native n 0 [] p Store.empty = some (.val (some v), env') ∨
          eval native n 0 [] p Store.empty = some (.ret v, env')) →
        ∃ k m' back, m.steps ext code k = some (.ret m' back) ∧ RV v (m'.regs rax) ∧
          Returned f loc H (.imm (m'.regs rax)) [] m m' back := by
  obtain ⟨fuel, h1⟩ := C53_compiled ht
  obtain ⟨f, hc, hpl⟩ := compile_ok p hs hj
  have hr := fits_roomy hc hf
  obtain ⟨hsim, hp, hu⟩ := compile_simple hc hd hr hn
  obtain ⟨code, hcode⟩ := C58_code_is_generated (E := E) hsim (by have := len_le hc; omega)
  refine ⟨fuel, f, code, fun n hn => (h1 n hn).trans hc, hcode, fun loc H ext cl tup me m hH he n v env' hev => ?_⟩
  have hv : v.flat := by
    have h0 : SFlat Store.empty := fun _ => trivial
    rcases hev with h | h
    · exact (eval_flat _ _ _ _ _ _ _ _ hn h0 h).1
    · exact (eval_flat _ _ _ _ _ _ _ _ hn h0 h).1
  obtain ⟨K, q, x, _, _, s0, c1, r, h0, t1, e1, b1, b2, b3, b4⟩ := run_to_ret p f n 0 v env' me [] native false hc hd hr hpl hg (by simp)
    (fun _ _ h => h) (fun _ => rfl) (fun _ => .fn f) (fun _ => .inr ⟨rfl, f, rfl⟩) hev
  generalize hF : (⟨⟨K, false, native⟩, ⟨f, localsOf (toSrc p), []⟩, [], 0⟩ : Frame) = F at *
  have e := raw_ret c1.s r 0 (c1.s.stack (ra F r)) _ (by subst hF; exact raw t1.good.f b1 b2) (by subst hF; exact t1.good.cur) (rd_reg x t1.good b3)
    (wr_at c1.s c1.s.rbase (ra F 0) 0 _ (by rw [t1.good.rbase x]; omega) (ra_lt x (by omega)))
  have ok : F.A.ok = native := by subst hF; rfl
  have st := t1.star
  rw [ok] at st
  have hm : Mild native c1.s := mild_easy (f := f) (by subst hF; exact t1.good.f) b2 rfl
  obtain ⟨w, hw, hRV⟩ := VR.toRV b4 (by intro ps b sc h; rw [h] at hv; exact hv)
  obtain ⟨m1, hm1⟩ := st.done e
  obtain ⟨k, m', back, g1, g2⟩ := C58_returns_what_the_interpreter_computes hsim hcode hH he (stk := fun _ => .fn f) (fun _ _ => ⟨trivial, trivial⟩) h0
    (fun t h => (st.mild e hm t h).tame) hm1
  have hval : m'.regs rax = w := by
    have := g2.value
    rw [hw] at this
    exact this
  refine ⟨k, m', back, g1, by rw [hval]; exact hRV, ⟨g2.addr, rfl, g2.sp, g2.bp, g2.kept, g2.bx, g2.stack, fun n v h => by simp at h⟩⟩

/-- A program meeting the hypotheses: `exCtl`. -/
example : IsTextOf (render exCtl) exCtl ∧ (inScope isWord isGlobal none false false exCtl []).isSome ∧ jumps exCtl ≤ MAX_JUMPS ∧
    depth exCtl ≤ 255 ∧ guarded false exCtl = true ∧ nativeOk 0 exCtl = true ∧ fits exCtl 0 ∧ size exCtl ≤ 1023 :=
  ⟨C53_render _ (by decide +kernel), by decide +kernel, by decide +kernel, by decide +kernel, by decide +kernel, by decide +kernel,
    by unfold fits; decide +kernel, by decide +kernel⟩

/-- The value of a program that is an integer. -/
def intValue (ok : Claims) (n : Nat) (p : Prog) : Option Int :=
  match eval ok n 0 [] p Store.empty with
  | some (.val (some (.int i)), _) => some i
  | some (.ret (.int i), _) => some i
  | _ => none

/-- The value is nil. -/
def isNilValue : Option (Spec.Out × Store) → Bool
  | some (.val (some .nil), _) => true
  | _ => false

/-- The machine code of a program run on a machine whose memory is filled with the word `fill`. -/
def nativeRun (p : Prog) (fill : PN) (k : Nat) : Option (Option (PN × PN)) :=
  match compile (toSrc p) with
  | none => none
  | some f => ran f 0#64 0#64 fill k

example : intValue native 100 exCtl = some 12 ∧ nativeRun exCtl 0xdead#64 3000 = some (some (pnNum 12, 77#64)) := by decide +kernel

/-- `if (false): x = 1. , x` -/
def exUnset : Prog := .seq (.ifs (.bool false) (.assign (bytesOf "x") (.int 1)) .none) (.var (bytesOf "x"))

/-- REFUTED for the language as a whole: `-7 / 2` gives 2147483645, `if (false): x = 1. , x` what was on the stack, and
`10 + (return 20)` ends with 10. -/
theorem C59_refuted :
    (intValue Claims.all 10 (.arith .over (.int (-7)) (.int 2)) = some (-3) ∧
      nativeRun (.arith .over (.int (-7)) (.int 2)) 0#64 200 = some (some (pnNum 2147483645, 77#64))) ∧
    (isNilValue (eval Claims.all 10 0 [] exUnset Store.empty) = true ∧
      nativeRun exUnset 0xdead#64 200 = some (some (0xdead#64, 77#64))) ∧
    (intValue Claims.all 10 (.arith .plus (.int 10) (.group (.ret (.int 20)))) = some 20 ∧
      nativeRun (.arith .plus (.int 10) (.group (.ret (.int 20)))) 0#64 200 = some (some (pnNum 10, 77#64))) := by
  decide +kernel

end Potion.Compile
