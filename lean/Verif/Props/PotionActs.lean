import Verif.Proof.GregActs10
import Verif.Proof.SigText5
import Verif.Props.Syntax
/-!
# C67: the generated parser with the actions of potion's grammar

`potionParse fuel text ..` is `potion_parse`: the C code greg generates from core/syntax.y, run in a fresh parser on the text, then the actions; its result
is what they leave in `P->source`. The trees of programs are those of Spec/Syntax.lean (`IsProgram`), those of all texts those of Model/Syntax.lean
(`Peg.parse`), with `Fits` for what is not determined: the parameter list of a function without one, the arguments of `extern`.
-/
namespace Potion.Greg
open Potion.Peg (Tree Kind)
open Potion.Spec (IsProgram chars node1 node2 operand)

section
variable {inp : List Byte} (buf : Nat → Byte) (thunks : Nat → Thunk) (text : List Byte) (vals : Env) (yy : Tree)

/-- What `potion_parse` returns, for every text shorter than the parser's buffer: a syntax error exactly where the grammar has no tree, the tree otherwise,
unless it has a refused escape or an `extern` with arguments. -/
theorem C67_trees (hs : inp.length < YY_BUFFER_START_SIZE) : ∃ f0 r, (∀ f, f0 ≤ f → Peg.parse f inp = some r) ∧
    (r = none → ∀ f, f0 ≤ f → potionParse f inp buf thunks text vals yy = some none) ∧
    ∀ t, r = some t → Clean t → ∃ v, Fits t v ∧ ∀ f, f0 ≤ f → potionParse f inp buf thunks text vals yy = some (some v) := by
  obtain ⟨ru, hr⟩ : ∃ ru, potionGrammar[R.potion]? = some ru := ⟨_, List.getElem?_eq_getElem (by decide +kernel)⟩
  obtain ⟨f1, r1, hf1⟩ := Peg.C52_ends inp
  obtain ⟨f2, ⟨ok, g', d'⟩, hf2⟩ := C65_potion (P := fun _ _ => true) (inp := inp) buf thunks text (fun r ru h a ha => potion_local r ru h a ha) hs R.potion (by decide +kernel) vals
    (yy, { pbuf := [], source := .nil, failed := false })
  have hx : ∀ f, max f1 f2 ≤ f → parse potionGrammar R.potion (fun _ _ => true) runAct f inp (init buf thunks text) vals (yy, { pbuf := [], source := .nil, failed := false }) = some (ok, g', d') :=
    fun f hf => hf2 f (by omega)
  have hrun := hf1 f1 (Nat.le_refl _)
  rw [Peg.parse, Option.map_eq_some_iff] at hrun
  obtain ⟨x, hx1, hx2⟩ := hrun
  refine ⟨max f1 f2, r1, fun f hf => hf1 f (by omega), ?_, ?_⟩
  · rintro rfl f hf
    cases x with
    | some x => cases hx2
    | none =>
      rcases C64_actions buf thunks text potion_made hr (fun r ru h => chkAll_uses potion_chk r ru h fun a ha => potion_local r ru h a ha) hs (hx f hf) with
        ⟨rfl, evs, m', h1, -, -⟩ | ⟨rfl, -⟩
      · cases agree_top hr h1 hx1
      · rw [potionParse, hx f hf]
  · rintro t rfl hc
    obtain ⟨⟨t', i⟩, rfl, rfl⟩ := Option.map_eq_some_iff.1 hx2
    rcases C64_actions buf thunks text potion_made hr (fun r ru h => chkAll_uses potion_chk r ru h fun a ha => potion_local r ru h a ha) hs (hx _ (Nat.le_refl _)) with
      ⟨rfl, evs, m', h1, -, h2⟩ | ⟨rfl, ⟨m', h1, -⟩, -⟩
    · obtain ⟨s, v, rfl, e1, e2, e3⟩ := potion_ok hr h1 hx1 h2
      refine ⟨ast1 .code v, .ast1 e2, fun f hf => ?_⟩
      have e4 := e3 hc.inv.1
      rw [potionParse, hx f hf]
      simp only [e4, e1, Bool.false_eq_true, if_false, ast1]
    · cases agree_top hr h1 hx1

/-- A text whose parse reads an escape `\\uXXXX` or `\\UXXXXXXXX` of a code that has no UTF-8 form ends the process, whatever else it contains. -/
theorem C67_escape (hs : inp.length < YY_BUFFER_START_SIZE) {ru p evs m'} (hr : potionGrammar[R.potion]? = some ru)
    (h : Eval potionGrammar (fun _ _ => true) inp R.potion ru.body 0 ⟨0, 0, []⟩ (.ok p evs m')) {r a b e} (hm : Ev.act r a b e ∈ evs) (he : e ≠ 0)
    (ha : (a = 109 ∧ Str.escu (Dec.atoi (slice inp b e) 16).toNat = none) ∨ (a = 110 ∧ Str.escU (Dec.atoi (slice inp b e) 16).toNat = none)) :
    ∃ f0, ∀ f, f0 ≤ f → potionParse f inp buf thunks text vals yy = some none := by
  obtain ⟨f2, ⟨ok, g', d'⟩, hf2⟩ := C65_potion (P := fun _ _ => true) (inp := inp) buf thunks text (fun r ru h a ha => potion_local r ru h a ha) hs R.potion (by decide +kernel) vals
    (yy, { pbuf := [], source := .nil, failed := false })
  refine ⟨f2, fun f hf => ?_⟩
  rw [potionParse, hf2 f hf]
  rcases C64_actions buf thunks text potion_made hr (fun r ru h => chkAll_uses potion_chk r ru h fun a ha => potion_local r ru h a ha) hs (hf2 _ (Nat.le_refl _)) with
    ⟨rfl, evs', m'', h1, -, h2⟩ | ⟨rfl, -⟩
  · cases Eval.det h _ h1
    have hx : d'.yy.2.failed = true := by
      refine runs_fails (A := runAct) runAct_failed h2 (r := r) (a := a) (b := b) (e := e) ?_ ?_
      · rw [List.cons_append]
        exact List.mem_cons_of_mem _ (List.mem_append_left _ hm)
      · intro t env y ht
        cases ht he
        rcases ha with ⟨rfl, ha⟩ | ⟨rfl, ha⟩
        · show (escWrite _ env y).2.2.failed = true
          rw [ha, escWrite]
        · show (escWrite _ env y).2.2.failed = true
          rw [ha, escWrite]
    show (if d'.yy.2.failed = true then _ else _) = _
    rw [if_pos hx]
  · rfl

/-- `"\\uD800"`: half of a surrogate pair; and `"\\u00e9"`, which is accepted. -/
example : (match potionParse 1000 (chars "\"\\uD800\"") (fun _ => 0) (fun _ => .pop 0) [] (fun _ => (.nil, ⟨[], .nil, false⟩)) .nil with
      | some none => true | _ => false) = true ∧
    (match potionParse 1000 (chars "\"\\u00e9\"") (fun _ => 0) (fun _ => .pop 0) [] (fun _ => (.nil, ⟨[], .nil, false⟩)) .nil with
      | some (some _) => true | _ => false) = true := by
  constructor <;> decide +kernel

/-- Every text of a program (Spec/Syntax.lean) is parsed into the tree its grouping denotes, by the generated C code and the actions. -/
theorem C67_programs {t} (h : IsProgram inp t) (hs : inp.length < YY_BUFFER_START_SIZE) : ∃ f0, ∀ f, f0 ≤ f → potionParse f inp buf thunks text vals yy = some (some t) := by
  obtain ⟨f0, r, h1, -, h2⟩ := C67_trees buf thunks text vals yy hs
  obtain ⟨f1, h3⟩ := Peg.C51_parse h
  have e := (h1 (max f0 f1) (by omega)).symm.trans (h3 (max f0 f1) (by omega))
  cases e
  obtain ⟨s, rfl, hx⟩ := program_exact h
  have hx : Exact (node1 .code s) := .node hx .imm .imm nofun
  obtain ⟨v, hv, h4⟩ := h2 _ rfl hx.clean
  rw [hx.fits hv] at h4
  exact ⟨f0, h4⟩
end

/-- Text to code: the generated parser and the compiler make of every text of a program the code of that program. -/
theorem C67_compiled {inp : List Byte} {p} (h : Spec.IsTextOf inp p) (hs : inp.length < YY_BUFFER_START_SIZE) (buf : Nat → Byte) (thunks : Nat → Thunk) (text : List Byte) (vals : Env) (yy : Tree) :
    ∃ f0, ∀ f, f0 ≤ f → ∃ t S, potionParse f inp buf thunks text vals yy = some (some t) ∧ Compile.programOf t = some S ∧ Compile.compile S = Compile.compile (Compile.toSrc p) := by
  obtain ⟨t, S, h1, h2, h3⟩ := Compile.text_reads h
  obtain ⟨f0, h4⟩ := C67_programs buf thunks text vals yy h1 hs
  exact ⟨f0, fun f hf => ⟨t, S, h4 f hf, h2, h3.compile⟩⟩

open Potion.Vm Potion.Compile in
/-- Running a text: the generated parser, its actions, the compiler and the interpreter compute the value of the program and leave its variable updates.
Partial as `C53_run_partial`. -/
theorem C67_run_partial {inp : List Byte} {p : Spec.Prog} (ht : Spec.IsTextOf inp p) (hl : inp.length < YY_BUFFER_START_SIZE)
    (hs : (inScope isWord isGlobal none false false p []).isSome) (hj : jumps p ≤ MAX_JUMPS) (hd : depth p ≤ 255)
    (self : Vm.Val) (hg : guarded (vtest self) p = true) (buf : Nat → Byte) (thunks : Nat → Thunk) (text : List Byte) (vals : Env) (yy : Tree) :
    ∃ fuel t S f, (∀ n, fuel ≤ n → potionParse n inp buf thunks text vals yy = some (some t)) ∧ programOf t = some S ∧ compile S = some f ∧ ∀ d, Roomy f d →
      ∀ n v env' heap, (Spec.eval interpreter n d [] p Spec.Store.empty = some (.val (some v), env') ∨
          Spec.eval interpreter n d [] p Spec.Store.empty = some (.ret v, env')) →
        ∃ s0 m s' r, Vm.start f self heap = some s0 ∧ State.steps m s0 = some (.done r s') ∧ Shows s' v r ∧
          ∀ (i : Nat) (x : Name), (localsOf (toSrc p))[i]? = some x → ∃ w, localVal s' i = some w ∧ Shows s' (env'.main x) w := by
  obtain ⟨t, S, h1, h2, h3⟩ := text_reads ht
  obtain ⟨f0, h4⟩ := C67_programs buf thunks text vals yy h1 hl
  obtain ⟨f, h5, h6⟩ := C54_functions_partial p hs hj hd self hg
  exact ⟨f0, t, S, f, h4, h2, by rw [h3.compile]; exact h5, h6⟩

/-! ### Examples -/

/-- The hypotheses of the theorems above hold of the program computing Fibonacci numbers. -/
example : Spec.IsTextOf (chars "fib = (n):if (n < 2):n . else:fib(n - 1) + fib(n - 2) . ., fib(8)") Compile.exFib ∧
    (chars "fib = (n):if (n < 2):n . else:fib(n - 1) + fib(n - 2) . ., fib(8)").length < YY_BUFFER_START_SIZE := by
  refine ⟨?_, by decide +kernel⟩
  have e : Spec.render Compile.exFib = chars "fib = (n):if (n < 2):n . else:fib(n - 1) + fib(n - 2) . ., fib(8)" := by decide +kernel
  rw [← e]
  exact Compile.C53_render _ (by decide +kernel)

/-- The outcome in a fresh parser whose values are nil. -/
def parsed (fuel : Nat) (s : String) : Option (Option Tree) :=
  potionParse fuel (chars s) (fun _ => 0#8) (fun _ => .pop 0) [] (fun _ => (.nil, ⟨[], .nil, false⟩)) .nil

def nameOf : Tree → List Byte
  | .node .expr (.tup [.node .msg (.str s) _ _]) _ _ => s
  | .str s => s
  | _ => []
/-- The parameters of the function that is the last statement. -/
def lastParams : Option (Option Tree) → Option (List (List Byte))
  | some (some (.node .code (.tup l) _ _)) => match l.getLast? with
    | some (.node .expr (.tup [.node .proto (.node .list (.tup ps) _ _) _ _]) _ _) => some (ps.map nameOf)
    | some (.node .expr (.tup [.node .proto _ _ _]) _ _) => some []
    | _ => none
  | _ => none
/-- The arguments of the `extern` that is the last statement. -/
def externArgs : Option (Option Tree) → Option (List (List Byte))
  | some (some (.node .code (.tup [.node .expr (.tup [.node .msg _ (.tup [_, .tup ps]) _]) _ _]) _ _)) => some (ps.map nameOf)
  | _ => none

/-- A function without a parameter list takes as parameters whatever its variable of the parser's stack holds: in `(a), : 2.` the list `(a)` of the
statement before (syntax.y:177: `t` is not assigned if there is no list). -/
theorem C67_refuted_function : lastParams (parsed 400 "(a, b): 2.") = some [chars "a", chars "b"] ∧ lastParams (parsed 400 ": 2.") = some [] ∧
    lastParams (parsed 400 "5, : 2.") = some [] ∧ lastParams (parsed 400 "(a), : 2.") = some [chars "a"] := by decide +kernel

/-- An `extern` within the arguments of another makes the arguments before it disappear: both use `P->source` (syntax.y:150-151). -/
theorem C67_refuted_extern : externArgs (parsed 600 "extern f(a, b:=|1., d)") = some [chars "a", chars "b", [], [], chars "d"] ∧
    externArgs (parsed 600 "extern f(a, b:=|extern g(c)., d)") = some [chars "c", chars "b", [], [], chars "d"] := by decide +kernel

end Potion.Greg
