import Verif.Proof.Agree7
import Verif.Props.CompileAll
import Verif.Props.Syntax
/-!
C70: what is proved of compiled programs run by the interpreter (C53, C54; Model/Compile.lean, Model/Lower.lean) and what is proved of every compiled program
(C69; Model/CompileAll.lean) is about the same code.
-/
namespace Potion.CompileAll
open Potion Potion.Peg Potion.Spec
open Potion.Compile (compileText programOf toSrc isWord isGlobal MAX_JUMPS inScope jumps depth guarded interpreter Roomy Shows localsOf localVal)

/-- C70. A program whose meaning is proved in C53 and C54 is compiled by the whole compiler, too, and to the function the interpreter is proved to run, field by
field, with all functions in it. Partial: for programs without an operator with `()` on its right (`C70_refuted`). -/
theorem C70_agree_partial (dl : List Byte → Bool) {t S p} (hs : programOf t = some S) (hp : Compile.compile S = some p) (hf : Fine t = true)
    {n : Nat} (hn : sizeOf t ≤ n) : ∃ f, compile dl n t = some f ∧ Alike p f := compile_alike hs hf hp hn

/-- The same from the text: whenever the text of a program compiles in one model it does in the other, and to the same function. -/
theorem C70_text_partial (dl : List Byte → Bool) {n text p} (h : compileText n text = some p) (hf : ∀ t, Peg.parse n text = some (some t) → Fine t = true) :
    ∃ t, Peg.parse n text = some (some t) ∧ ∀ m, sizeOf t ≤ m → ∃ f, compile dl m t = some f ∧ Alike p f := by
  obtain ⟨r, h1, h⟩ := Option.bind_eq_some_iff.1 h
  cases r with
  | none => contradiction
  | some t =>
    obtain ⟨S, h2, h3⟩ := Option.bind_eq_some_iff.1 h
    exact ⟨t, h1, fun m hm => compile_alike h2 (hf t h1) h3 hm⟩

/-- Text to value through the whole compiler: the text of a well-scoped program is parsed, the whole compiler makes a function of it, and the interpreter, run
on that function, returns the value of the program and leaves its variables. Partial as `C53_run_partial`, and no operator has `()` on its right. -/
theorem C70_run_partial (dl : List Byte → Bool) {text : List Byte} {p : Prog} (ht : IsTextOf text p)
    (hs : (inScope isWord isGlobal none false false p []).isSome) (hj : jumps p ≤ MAX_JUMPS) (hd : depth p ≤ 255)
    (self : Vm.Val) (hg : guarded (Vm.vtest self) p = true) (hf : ∀ t, IsProgram text t → Fine t = true) :
    ∃ t q, IsProgram text t ∧ (∃ fuel, ∀ n, fuel ≤ n → Peg.parse n text = some (some t)) ∧
      (∀ n, sizeOf t ≤ n → ∃ f, compile dl n t = some f ∧ Alike q f) ∧ ∀ d, Roomy q d →
      ∀ n v env' heap, (eval interpreter n d [] p Store.empty = some (.val (some v), env') ∨
          eval interpreter n d [] p Store.empty = some (.ret v, env')) →
        ∃ s0 m s' r, Vm.start q self heap = some s0 ∧ Vm.State.steps m s0 = some (.done r s') ∧ Shows s' v r ∧
          ∀ (i : Nat) (x : List Byte), (localsOf (toSrc p))[i]? = some x → ∃ w, localVal s' i = some w ∧ Shows s' (env'.main x) w := by
  obtain ⟨t, S, h1, h2, h3⟩ := Compile.text_reads ht
  obtain ⟨q, h4, h5⟩ := Compile.C54_functions_partial p hs hj hd self hg
  refine ⟨t, q, h1, C51_parse h1, fun n hn => compile_alike h2 (hf t h1) (h3.compile.trans h4) hn, h5⟩

/-! ### Examples and the limit -/

/-- Registers and instructions of the other model. -/
def plain (p : Vm.Proto) : Nat × List Ins := (p.stack, (List.range p.len).map fun k => insOf (p.code k))
def ofFragment (s : String) : Option Vm.Proto := compileText 1000 (Compile.bytesOf s)

/-- The two models on programs with a closure, a loop, calls and a branch. -/
example : ∀ s ∈ ["f = (n): if (n < 2): n. else: f(n - 1) + f(n - 2).., f(8)", "i = 0, while (i < 3): i++, if (i == 2): break.., i",
    "m = (a): (b): a = a + b, a. . , c = m(10), c(1) * 2"],
    (ofText s).map (fun f => (listing f, f.protos.map listing)) = (ofFragment s).map (fun p => (plain p, p.protos.map plain)) ∧ (ofFragment s).isSome ∧ fineText s := by
  decide +kernel

/-- `C70_text_partial` applies to them. -/
theorem ofText_alike {s : String} {p} (h : ofFragment s = some p) (hc : fineText s = true) : ∃ t, Peg.parse 1000 (Compile.bytesOf s) = some (some t) ∧
    ∀ m, sizeOf t ≤ m → ∃ f, compile (fun _ => true) m t = some f ∧ Alike p f := by
  refine C70_text_partial _ h fun t ht => ?_
  unfold fineText at hc
  rw [ht] at hc
  exact hc
example : ∃ p t f m, compile (fun _ => true) m t = some f ∧ Alike p f ∧ p.protos.length = 1 ∧ 10 < p.len := by
  have h : (ofFragment "m = (a): (b): a = a + b, a. . , c = m(10), c(1) * 2").map (fun p => (p.protos.length, decide (10 < p.len))) = some (1, true) := by decide +kernel
  obtain ⟨p, h1, h2⟩ := Option.map_eq_some_iff.1 h
  obtain ⟨t, -, ht⟩ := ofText_alike h1 (by decide +kernel)
  obtain ⟨f, h3, h4⟩ := ht _ (Nat.le_refl _)
  simp only [Prod.mk.injEq] at h2
  exact ⟨p, t, f, _, h3, h4, h2.1, of_decide_eq_true h2.2⟩

/-- `1 + ()`: the models differ, the compiler has one register where the compiler of the fragment has two. -/
theorem C70_refuted : (ofText "1 + ()").map listing = some (1, [⟨.loadpn, 0, 3⟩, ⟨.add, 0, 1⟩, ⟨.ret, 0, 0⟩]) ∧
    (ofFragment "1 + ()").map plain = some (2, [⟨.loadpn, 0, 3⟩, ⟨.add, 0, 1⟩, ⟨.ret, 0, 0⟩]) := by
  decide +kernel

end Potion.CompileAll
