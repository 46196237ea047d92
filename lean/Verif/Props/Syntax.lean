import Verif.Proof.SyntaxMain
import Verif.Proof.TextParse
import Verif.Proof.Render
import Verif.Props.Compiler
/-!
C51 (parsing respects the grouping of operators), C52 (parsing ends).

`Spec/Syntax.lean` gives the language: a context free grammar with a table of precedences, `Reads` relates phrases to
syntax trees and `IsProgram` whole texts. `parse` (Model/Syntax.lean) is the parser greg makes of core/syntax.y.
-/
namespace Potion.Peg
open Potion Potion.Spec

/-- A text of the language is parsed into the tree its grouping denotes. -/
theorem C51_parse {text t} (h : IsProgram text t) : ∃ f0, ∀ f, f0 ≤ f → parse f text = some (some t) := by
  have key : G program text (some (t, [])) := by
    cases h with
    | empty hg =>
      obtain ⟨v, h1⟩ := wsl_ok hg (k := []) Head.nil
      have h3 : G (.nt .stmt) [] none := fails_nil (by decide) (by decide)
      have h4 : G (.not (.chr fun _ => true)) [] (some (.none, [])) := Gives.not1 (fails_nil (by decide) (by decide))
      have := Gives.act (g := ast .code) (right_ok h1 (left_ok (stmts_none h3) h4))
      simp only [List.append_nil] at this ⊢; exact this
    | @stmts g s t w hg hs hw =>
      have ih := reads_parse hs
      obtain ⟨hl, a, l, rfl, _⟩ := id ih
      obtain ⟨v, h1⟩ := wsl_ok hg (hl.wsl (w ++ []))
      have h4 : G (.not (.chr fun _ => true)) [] (some (.none, [])) := Gives.not1 (fails_nil (by decide) (by decide))
      have := Gives.act (g := ast .code) (right_ok h1 (left_ok (stmts_of ih ⟨aft_nil hw, .inl rfl⟩) h4))
      simp only [List.append_nil] at this ⊢; exact this
  obtain ⟨f0, hf⟩ := key
  exact ⟨f0, fun f h => by simp [parse, run_le h hf]⟩

/-- So a text has one tree at most: grouping is unambiguous. -/
theorem C51_unambiguous {text t t'} (h : IsProgram text t) (h' : IsProgram text t') : t = t' := by
  obtain ⟨f, hf⟩ := C51_parse h
  obtain ⟨f', hf'⟩ := C51_parse h'
  have e := (hf _ (Nat.le_max_left f f')).symm.trans (hf' _ (Nat.le_max_right f f'))
  simpa using e

/-- Strings and hexadecimal numbers: `'it''s'`, `"a\n\u20AC\x"` and `0xfF`. -/
example : Reads .lit (chars "'it''s'") (node1 .value (.str (chars "it's"))) :=
  .str (.single (.char (.ascii (c := 0x69#8) (by decide)) (by decide) (.char (.ascii (c := 0x74#8) (by decide)) (by decide) (.quote
    (.char (.ascii (c := 0x73#8) (by decide)) (by decide) .nil)))))
example : Reads .lit (chars "\"a\\n\\u20AC\\x\"") (node1 .value (.str [0x61#8, 0x0A#8, 0xE2#8, 0x82#8, 0xAC#8, 0x78#8])) :=
  .str (.double (.char (.ascii (c := 0x61#8) (by decide)) (by decide) (by decide) (.escape (c := 0x6E#8) (by decide)
    (.code4 (ds := [2, 0, 10, 12]) (cs := chars "20AC") (t := [0xE2#8, 0x82#8, 0xAC#8])
      (.cons (by unfold HexChar; decide) (.cons (by unfold HexChar; decide) (.cons (by unfold HexChar; decide) (.cons (by unfold HexChar; decide) .nil)))) rfl (by decide) (by decide) (by decide)
      (.other (.ascii (c := 0x78#8) (by decide)) (by simp only [escapes, List.mem_cons, Prod.mk.injEq, List.not_mem_nil, or_false]; rintro c d (⟨rfl, rfl⟩ | ⟨rfl, rfl⟩ | ⟨rfl, rfl⟩ | ⟨rfl, rfl⟩ | ⟨rfl, rfl⟩ | ⟨rfl, rfl⟩) <;> decide) (by decide) (by decide) .nil)))))
example : Reads .lit (chars "0xfF") (node1 .value (.imm (pnNum 255))) :=
  .hex (ds := [15, 15]) (cs := chars "fF") (.cons (by unfold HexChar; decide) (.cons (by unfold HexChar; decide) .nil)) (by simp)

/-- Floating point numbers: `1.5e-3`. -/
example : Reads .lit (chars "1.5e-3") (node1 .value (.dbl (chars "1.5e-3"))) :=
  .dbl (ds := [1]) (x := chars ".5e-3") ⟨by decide, .inr ⟨1, [], rfl, by decide⟩⟩ (.inr (.inr ⟨chars ".5", chars "e-3", rfl,
    ⟨chars "5", rfl, by decide, by decide⟩, ⟨"-", chars "3", by decide, rfl, by decide, by decide⟩⟩))
theorem words : IsWord (chars "width") ∧ IsName (chars "empty") ∧ IsName (chars "x") := by
  have h : IsWord (chars "width") ∧ IsWord (chars "empty") ∧ IsWord (chars "x") :=
    ⟨⟨0x77#8, chars "idth", rfl, by decide, by decide⟩, ⟨0x65#8, chars "mpty", rfl, by decide, by decide⟩, ⟨0x78#8, [], rfl, by decide, by decide⟩⟩
  refine ⟨h.1, ⟨h.2.1, by decide, fun r e => ?_⟩, ⟨h.2.2, by decide, fun r e => ?_⟩⟩
  · exact absurd (List.cons.inj (List.cons.inj e).2).1 (by decide)
  · exact absurd (List.cons.inj e).1 (by decide)
/-- `x empty? /width` and `x -5`: predicates, paths, literals with a sign. -/
example : Reads (.ex 10) (chars "x empty? /width") (operand (.node .msg (.str (chars "x")) (.imm PN_NIL) (.imm PN_NIL))
    [.node .msg (.str (chars "empty?")) (.imm PN_NIL) (.imm PN_NIL), .node .path (.str (chars "width")) (.imm PN_NIL) (.imm PN_NIL)]) := by
  have bl : Blank (chars " ") := by intro c h; revert c; decide
  exact .operand (.atomCall (.call0 (.name words.2.2) .noBlock)) (.calls bl (by decide) (.call0 (.nameQ words.2.1) .noBlock)
    (.calls bl (by decide) (.call0 (.path words.1) .noBlock) .calls0))
example : Reads .call (chars "x -5") (.node .msg (.str (chars "x")) (node1 .value (.imm (pnNum (-5)))) (.imm PN_NIL)) :=
  .callLit (.name words.2.2) (w := chars " ") (by intro c h; revert c; decide) (by decide)
    (.argNeg (ds := [5]) ⟨by decide, .inr ⟨5, [], rfl, by decide⟩⟩ (by decide)) .noBlock

/-- Examples of the hypotheses: `x = 1 + 2 * 3` followed by a comment is a program, and so is the empty text. -/
example : IsProgram (chars " " ++ (chars "1 + 2 * 3" ++ chars " # six")) (node1 .code (.tup [
    node2 .plus (operand (node1 .value (.imm (pnNum 1))) []) (node2 .times (operand (node1 .value (.imm (pnNum 2))) [])
      (operand (node1 .value (.imm (pnNum 3))) []))])) := by
  have num : ∀ d, d < 10 → d ≠ 0 → Reads (.ex 10) [digitChar d] (operand (node1 .value (.imm (pnNum d))) []) := by
    intro d h h0
    have := Reads.operand (Reads.atomLit (Reads.int (ds := [d]) ⟨by simpa using h, .inr ⟨d, [], rfl, h0⟩⟩)) Reads.calls0
    simpa [numeral] using this
  have bl : Blank (chars " ") := by intro c h; revert c; decide
  have gp : Gap false (chars " ") := .char (by decide) .nil
  have h9 : ∀ {s t}, Reads (.ex 10) s t → Reads (.ex 9) s t := fun h => .up (by omega) h
  have h8 : ∀ {s t}, Reads (.ex 10) s t → Reads (.ex 8) s t := fun h => .up (by omega) (h9 h)
  have h7 : ∀ {s t}, Reads (.ex 10) s t → Reads (.ex 7) s t := fun h => .up (by omega) (h8 h)
  have m := Reads.bin (o := .times) (sp := "*") (h8 (num 2 (by omega) (by omega))) bl (by simp [Bin.spellings]) (by decide) gp (by decide)
    (h9 (num 3 (by omega) (by omega)))
  have a := Reads.bin (o := .plus) (sp := "+") (h7 (num 1 (by omega) (by omega))) bl (by simp [Bin.spellings]) (by decide) gp (by decide) m
  refine IsProgram.stmts gp (.one (.up (by omega) (.up (by omega) (.up (by omega) (.up (by omega) (.up (by omega) (.up (by omega)
    (.up (by omega) a)))))))) (.inr ⟨chars " ", chars " six", rfl, bl, ?_, .inl rfl⟩)
  unfold Printable; intro c h; revert c; decide

example : IsProgram [] (node1 .code (.imm PN_NIL)) := .empty .nil

/-- Whether a text is a syntax error, with that much fuel. -/
def rejected (fuel : Nat) (text : String) : Bool := match parse fuel (chars text) with
  | some none => true
  | _ => false
/-- Whether a text has a tree. -/
def accepted (fuel : Nat) (text : String) : Bool := match parse fuel (chars text) with
  | some (some _) => true
  | _ => false
/-- The tree of a text of one statement. -/
def statement (fuel : Nat) (text : String) : Option Tree := match parse fuel (chars text) with
  | some (some (.node .code (.tup [t]) _ _)) => some t
  | _ => none

set_option maxRecDepth 20000 in
/-- Without white space after `-`, a difference is something else: `x-1` is a call of `x` with the argument -1, and `1-1`
a call of 1. -/
theorem C51_refuted_minus :
    statement 100 "x-1" = some (operand (.node .msg (.str (chars "x")) (node1 .value (.imm (pnNum (-1)))) (.imm PN_NIL)) []) ∧
    statement 100 "x - 1" = some (node2 .minus (operand (.node .msg (.str (chars "x")) (.imm PN_NIL) (.imm PN_NIL)) [])
      (operand (node1 .value (.imm (pnNum 1))) [])) := by
  exact ⟨rfl, rfl⟩

set_option maxRecDepth 20000 in
/-- A name beginning with `extern` is not a variable: `externx` declares `x`. -/
theorem C51_refuted_extern : statement 100 "externx" =
    some (operand (.node .msg (.str (chars "extern")) (.tup [.node .msg (.str (chars "x")) (.imm PN_NIL) (.imm PN_NIL)]) (.imm PN_NIL)) []) := by
  rfl

set_option maxRecDepth 20000 in
/-- `||` and `|` cannot be used in a block: `|` opens a group. -/
theorem C51_refuted_pipe : accepted 400 "a || b" = true ∧ rejected 400 "f: a || b." = true ∧
    accepted 400 "a | b" = true ∧ rejected 400 "f: a | b." = true := by
  decide +kernel

/-- Parsing ends on every text: with a tree, or with a syntax error. -/
theorem C52_ends (text : List Byte) : ∃ f0 r, ∀ f, f0 ≤ f → parse f text = some r := by
  obtain ⟨r, f0, hf⟩ := grammar_total text program (by decide)
  exact ⟨f0, r.map (·.1), fun f h => by simp [parse, run_le h hf]⟩

end Potion.Peg

namespace Potion.Compile
open Potion Potion.Vm Potion.Peg Potion.Spec

/-- Every text of a program is parsed and compiled as that program. -/
theorem C53_compiled {text p} (h : IsTextOf text p) : ∃ f0, ∀ f, f0 ≤ f → compileText f text = compile (toSrc p) := by
  obtain ⟨t, S, h1, h2, h3⟩ := text_reads h
  obtain ⟨f0, hf⟩ := C51_parse h1
  exact ⟨f0, fun f hle => by simp [compileText, hf f hle, h2, h3.compile]⟩

/-- Running a text: the text of a well-scoped program, with whatever white space, is parsed and compiled, and the
interpreter returns the value of the program and leaves its variable updates. Partial as `C54_functions_partial`. -/
theorem C53_run_partial {text : List (BitVec 8)} {p : Prog} (ht : IsTextOf text p)
    (hs : (inScope isWord isGlobal none false false p []).isSome) (hj : jumps p ≤ MAX_JUMPS) (hd : depth p ≤ 255)
    (self : Val) (hg : guarded (vtest self) p = true) :
    ∃ fuel f, (∀ n, fuel ≤ n → compileText n text = some f) ∧ ∀ d, Roomy f d →
      ∀ n v env' heap, (eval interpreter n d [] p Store.empty = some (.val (some v), env') ∨
          eval interpreter n d [] p Store.empty = some (.ret v, env')) →
        ∃ s0 m s' r, start f self heap = some s0 ∧ State.steps m s0 = some (.done r s') ∧ Shows s' v r ∧
          ∀ (i : Nat) (x : Name), (localsOf (toSrc p))[i]? = some x → ∃ w, localVal s' i = some w ∧ Shows s' (env'.main x) w := by
  obtain ⟨fuel, h1⟩ := C53_compiled ht
  obtain ⟨f, h2, h3⟩ := C54_functions_partial p hs hj hd self hg
  exact ⟨fuel, f, fun n hn => (h1 n hn).trans h2, h3⟩

/-- Every program grouped as its operators demand has a text. -/
theorem C53_render (p : Prog) (h : grouped true p = true) : IsTextOf (render p) p := by
  rcases render_st p h with ⟨rfl, e⟩ | h
  · rw [e]; exact .empty .nil
  · have := IsTextOf.stmts (g := []) (w := []) .nil h (.inl (by intro c h; simp at h))
    simpa using this

/-- Examples of the hypotheses of `C53_run_partial`: the programs `exCtl`, `exClo` and `exFib`. -/
example : render exCtl = chars ("i = 0, s = 0, while (i < 10):i++, if (i % 2 == 1):continue . elsif (i == 8):break ." ++
    " else:s = s + i . ., s") ∧ grouped true exCtl = true ∧ (inScope isWord isGlobal none false false exCtl []).isSome ∧
    jumps exCtl ≤ MAX_JUMPS ∧ depth exCtl ≤ 255 ∧ guarded false exCtl = true := by decide +kernel
example : render exClo = chars ("make = (a):(b):a = a + b, a . ., c = make(10), d = make(100), c(1), c(2), d(5) * 1000 + c(3)") ∧
    grouped true exClo = true := by decide +kernel
example : render exFib = chars ("fib = (n):if (n < 2):n . else:fib(n - 1) + fib(n - 2) . ., fib(8)") ∧ grouped true exFib = true := by decide +kernel

/-- With `else` on a line of its own. -/
example : IsTextOf (chars "if (true):1 .\nelse:2 .") (.ifs (.bool true) (.int 1) (.els (.int 2))) := by
  have st : ∀ {p s}, Says (.ex 10 p) s → Says (.stmts p) s := fun h => .one (.stmt (says_down h (by omega) (by omega)))
  have h1 : Says (.ex 10 (.ifs (.bool true) (.int 1) .none)) (chars "if (true):1 .") := by
    have := Says.ifs (blank_one) (says_list (.inr (st .true))) blank_none (says_block (.inr (st (says_digits 1)))) .endif
    exact this
  have h2 : Says (.lines (.els (.int 2))) (chars "else:2 .") :=
    .lines1 (.els blank_none (says_block (.inr (st (says_digits 2)))))
  have := IsTextOf.stmts (g := []) (w := []) .nil (.one (.stmtIf (w := []) (sp := chars "\n") h1 rfl (.inl blank_none)
    ⟨_, _, rfl, .inr (by decide), .nil⟩ h2)) (.inl blank_none)
  exact this

/-- With other white space, the model itself run. -/
example : (compileText 300 (chars "i = 0\ns = 0 # sum\nwhile (i < 10):\n  i++\n  if (i % 2 == 1): continue.\n  elsif (i == 8): break.\n  else: s = s + i.\n.\ns\n")).bind (runs 300)
    = some (pnNum 12) := by decide +kernel
example : (compileText 300 (chars "make = (a):\n  (b): a = a + b, a.\n.\nc = make (10)\nd = make( 100 )\nc(1)\nc (2,)\nd(5) * 1000 + c(3)\n")).bind (runs 100)
    = some (pnNum 105016) := by decide +kernel

end Potion.Compile
