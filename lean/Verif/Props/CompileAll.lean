import Verif.Proof.CompileAll5
import Verif.Model.Syntax
/-!
C69: what the compiler makes of any program stays inside the frame of its function.
-/
namespace Potion.CompileAll
open Potion Potion.Peg

/-- C69. Every instruction of every function of the compiled program uses registers, locals, upvalues, constants and functions
that exist, every jump leads to an instruction, and the code ends with a return; for programs without the three constructs that
leave the frame (below), and functions whose sizes fit the 12-bit operands. -/
theorem C69_inside_partial {dl fuel t f} (h : compile dl fuel t = some f) (hf : Fine t = true) {g : Fn} (hg : Part g f)
    (hn : g.native = false) (hs : g.fits) : g.inside 0 :=
  compile_neat h (.inl hf) g hg hn hs

/-- C69, any program at all: never more than one register past the frame, and never a jump further than one past the end. -/
theorem C69_inside_any {dl fuel t f} (h : compile dl fuel t = some f) {g : Fn} (hg : Part g f) (hn : g.native = false)
    (hs : g.fits) : g.inside 1 :=
  compile_neat h (.inr (Nat.le_refl 1)) g hg hn hs

theorem inside_lt {g : Fn} (h : g.inside 0) {k : Nat} (hk : k < g.len) (hr : (g.code k).op ≠ .ret) : k + 1 < g.len := by
  rcases Nat.lt_or_ge (k + 1) g.len with h' | h'
  · exact h'
  · have : k = g.len - 1 := by omega
    exact absurd (this ▸ h.2.2) hr

/-- C69, run: whatever its tests give, the interpreter is always at an instruction of the function, and that instruction touches
nothing outside. -/
theorem C69_run_partial {dl fuel t f} (h : compile dl fuel t = some f) (hf : Fine t = true) {g : Fn} (hg : Part g f)
    (hn : g.native = false) (hs : g.fits) {k : Nat} (hk : g.Reach k) : k < g.len ∧ (g.frame 0).ins k := by
  have hi := C69_inside_partial h hf hg hn hs
  suffices hl : k < g.len from ⟨hl, hi.1 k hl⟩
  induction hk with
  | start => exact hi.2.1
  | next _ h1 _ _ ih => exact inside_lt hi ih h1
  | @jump k p _ ho hp ih =>
    have hk := hi.1 _ ih
    have hc : (g.frame 0).code k = g.code k := rfl
    unfold Frame.ins at hk
    rw [hc, ho] at hk
    have := hk.2
    simp only [Fn.frame] at this
    have := hi.2.1
    omega
  | @test k p _ ho hp ih =>
    have hk := hi.1 _ ih
    have hc : (g.frame 0).code k = g.code k := rfl
    unfold Frame.ins at hk
    rw [hc] at hk
    have hk' : (g.frame 0).pos ((k : Int) + 1 + (g.code k).b) := by
      rcases ho with ho | ho <;> rw [ho] at hk <;> exact hk.2
    have := hk'.2
    simp only [Fn.frame] at this
    have := hi.2.1
    omega
  | @proto k g' _ ho hp ih =>
    have hk := hi.1 _ ih
    have hc : (g.frame 0).code k = g.code k := rfl
    unfold Frame.ins at hk
    rw [hc, ho] at hk
    obtain ⟨_, n, _, h1, h2⟩ := hk
    have h1' : (g.protos.map (·.upvals.length))[(g.code k).b.toNat]? = some n := h1
    rw [List.getElem?_map, hp] at h1'
    injection h1' with h1'
    dsimp only at h1'
    cases hg' : g'.upvals.length with
    | zero => exact inside_lt hi ih (by rw [ho]; decide)
    | succ m =>
      obtain ⟨h3, h4⟩ := h2 m (by rw [← h1', hg']; omega)
      have := inside_lt hi (k := k + 1 + m) h3 (by
        intro hh
        have h4' : (g.code (k + 1 + m)).op = .getupval ∨ (g.code (k + 1 + m)).op = .getlocal := h4
        rw [hh] at h4'
        simp at h4')
      omega

/-! ### The texts below -/

/-- The compiled text, if there is one. -/
def ofText (s : String) : Option Fn :=
  match Peg.parse 1000 (Compile.bytesOf s) with
  | some (some t) => compile (fun _ => true) 60 t
  | _ => none
def fineText (s : String) : Bool :=
  match Peg.parse 1000 (Compile.bytesOf s) with
  | some (some t) => Fine t
  | _ => false
theorem ofText_tree {s f} (h : ofText s = some f) (hc : fineText s = true) : ∃ t, Fine t = true ∧ compile (fun _ => true) 60 t = some f := by
  unfold ofText at h
  unfold fineText at hc
  split at h
  · rename_i t ht
    rw [ht] at hc
    exact ⟨t, hc, h⟩
  · contradiction
/-- Registers and instructions. -/
def listing (f : Fn) : Nat × List Ins := (f.stack, (List.range f.len).map f.code)

/-- The sizes the operands must be able to hold. -/
def sizes (f : Fn) : Bool × List Nat := (f.over || f.native, [f.len, f.locals.length, f.upvals.length, f.values.length, f.protos.length])
/-- The theorem is about programs like this one, with a function, a loop left by `break` and named arguments. -/
example : fineText "f = (x): loop: if (x == 3): break., x++.., f(x=1)" = true := by decide +kernel
theorem exampleSizes : (ofText "f = (x): loop: if (x == 3): break., x++.., f(x=1)").map (fun f => (sizes f, f.protos.map sizes)) =
    some ((false, [9, 1, 0, 1, 1]), [(false, [12, 1, 0, 0, 0])]) := by decide +kernel
example : ∃ f g, ofText "f = (x): loop: if (x == 3): break., x++.., f(x=1)" = some f ∧ g ∈ f.protos ∧ f.inside 0 ∧ g.inside 0 := by
  obtain ⟨f, h1, h2⟩ := Option.map_eq_some_iff.1 exampleSizes
  have hfit : ∀ (g : Fn) a b c d e, sizes g = (false, [a, b, c, d, e]) → a ≤ 2048 → b ≤ 2048 → c ≤ 2048 → d ≤ 2048 → e ≤ 2048 →
      g.native = false ∧ g.fits := by
    intro g a b c d e h h1 h2 h3 h4 h5
    simp only [sizes, Prod.mk.injEq, Bool.or_eq_false_iff, List.cons.injEq, and_true] at h
    obtain ⟨⟨a1, a2⟩, rfl, rfl, rfl, rfl, rfl⟩ := h
    exact ⟨a2, a1, h1, h2, h3, h4, h5⟩
  simp only [Prod.mk.injEq] at h2
  obtain ⟨hs, hp⟩ := h2
  cases hpr : f.protos with
  | nil => rw [hpr] at hp; simp at hp
  | cons g l =>
    rw [hpr] at hp
    simp only [List.map_cons, List.cons.injEq, List.map_eq_nil_iff] at hp
    have hc : fineText "f = (x): loop: if (x == 3): break., x++.., f(x=1)" = true := by decide +kernel
    obtain ⟨t, hc, h1'⟩ := ofText_tree h1 hc
    obtain ⟨n1, f1⟩ := hfit f _ _ _ _ _ hs (by omega) (by omega) (by omega) (by omega) (by omega)
    obtain ⟨n2, f2⟩ := hfit g _ _ _ _ _ hp.1 (by omega) (by omega) (by omega) (by omega) (by omega)
    exact ⟨f, g, h1, by simp [hpr], C69_inside_partial h1' hc (.self f) n1 f1,
      C69_inside_partial h1' hc (.sub (h := g) (by simp [hpr]) (.self g)) n2 f2⟩

/-- `1 + ()` reads a register that is not there: C69 does not hold of every program. -/
theorem C69_operand_refuted : (ofText "1 + ()").map listing = some (1, [⟨.loadpn, 0, 3⟩, ⟨.add, 0, 1⟩, ⟨.ret, 0, 0⟩]) := by
  decide +kernel
/-- A class with a body puts the function of the body into a register past the frame. -/
theorem C69_class_refuted : (ofText "class: 1.").map listing =
    some (1, [⟨.self, 0, 0⟩, ⟨.proto, 1, 0⟩, ⟨.class, 0, 1⟩, ⟨.ret, 0, 0⟩]) := by
  decide +kernel
/-- `?x = 5` stores nothing, and if `x` is true it jumps past the end. -/
theorem C69_query_refuted : (ofText "x = 1, ?x = 5").map listing =
    some (1, [⟨.loadpn, 0, 3⟩, ⟨.setlocal, 0, 0⟩, ⟨.loadpn, 0, 11⟩, ⟨.getlocal, 0, 0⟩, ⟨.testjmp, 0, 1⟩, ⟨.ret, 0, 0⟩]) := by
  decide +kernel
/-- So none of the three is inside its frame. -/
theorem C69_refuted : ∀ s ∈ ["1 + ()", "class: 1.", "x = 1, ?x = 5"], ∃ f, ofText s = some f ∧ ¬ f.inside 0 := by
  have key : ∀ (s : String) (n : Nat) (l : List Ins) (k : Nat) (i : Ins), (ofText s).map listing = some (n, l) → l[k]? = some i →
      (∀ F : Frame, F.stack = n → F.code k = i → F.last = l.length - 1 → ¬ F.ins k) → ∃ f, ofText s = some f ∧ ¬ f.inside 0 := by
    intro s n l k i h hi hF
    obtain ⟨f, h1, h2⟩ := Option.map_eq_some_iff.1 h
    simp only [listing, Prod.mk.injEq] at h2
    obtain ⟨rfl, rfl⟩ := h2
    refine ⟨f, h1, fun hin => ?_⟩
    rw [List.getElem?_map] at hi
    obtain ⟨j, hj, hi'⟩ := Option.map_eq_some_iff.1 hi
    have hk : k < f.len := by simpa using (List.getElem?_eq_some_iff.1 hj).1
    have : j = k := by simpa [hk] using hj.symm
    subst this
    exact hF (f.frame 0) rfl hi' (by simp [Fn.frame]) (hin.1 j hk)
  intro s hs
  simp only [List.mem_cons, List.not_mem_nil, or_false] at hs
  rcases hs with rfl | rfl | rfl
  · refine key _ _ _ 1 _ C69_operand_refuted rfl fun F hF hc _ hi => ?_
    unfold Frame.ins at hi; rw [hc] at hi
    have := hi.2.2; rw [hF] at this; simp at this
  · refine key _ _ _ 1 _ C69_class_refuted rfl fun F hF hc _ hi => ?_
    unfold Frame.ins at hi; rw [hc] at hi
    have := hi.1.2; rw [hF] at this; simp at this
  · refine key _ _ _ 4 _ C69_query_refuted rfl fun F hF hc hl hi => ?_
    unfold Frame.ins at hi; rw [hc] at hi
    have := hi.2.2; rw [hl] at this; simp at this

/-- A text of 33 bytes in quotes crashes the compiler; one of 32 or 34 does not. -/
theorem C69_33_refuted : [32, 33, 34].map (fun n => (ofText ("'" ++ String.ofList (List.replicate n 'a') ++ "'")).isSome) = [true, false, true] := by
  decide +kernel
/-- `a[2000]` does not read element 2000: the instruction has the number of the register the 2000 was loaded into. -/
theorem C69_index_refuted : (ofText "a = (1), a[2000]").map (fun f => (f.code 6, f.values.length)) = some (⟨.gettuple, 0, 1⟩, 1) := by
  decide +kernel

end Potion.CompileAll
