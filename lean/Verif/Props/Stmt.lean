import Verif.Props.Send
import Verif.Proof.Stmt4
/-! C77: statements. -/
namespace Potion.Send
open Potion Potion.Peg Potion.CompileAll

/-- C77: a program of expressions, `if`, `elsif`, `else`, `while`, `loop`, `break`, `continue` and `return` (Spec/Stmt.lean) is compiled, and if the code fits into the
fields of its instructions, then whatever the objects are: if the program ends, so does its code, with the same value and memory or the same error; if the program does not
end, the code runs for ever. -/
theorem C77_statements (dl : List (BitVec 8) → Bool) (b : Stms) (h : okP b = true) : ∃ N, ∀ n ≥ N, ∃ f, compile dl n (programS b) = some f ∧
    (f.fits → ∀ (V S E : Type) (W : World V S E) (me : V) (reg : Nat → V) (m : S),
      (∀ r, RunP W me b (reg 0) ⟨fun _ => W.const .nil, m⟩ r → Gives W me f ⟨0, reg, fun _ => W.const .nil, m⟩ r) ∧
      ((∀ r, ¬ RunP W me b (reg 0) ⟨fun _ => W.const .nil, m⟩ r) → ∀ k, ∃ t, run W me f k ⟨0, reg, fun _ => W.const .nil, m⟩ = .go t)) := programS_ok b h

/-- C77: a program ends in one way at most. -/
theorem C77_one_end {V S E : Type} (W : World V S E) (me : V) (b : Stms) (v : V) (s : Mem V S) (r r' : Res V S E V)
    (h : RunP W me b v s r) (h' : RunP W me b v s r') : r = r' := runP_det b v s r r' h h'

/-! ### Texts -/

/-- The text is this program, one of those above. -/
def meansS (s : String) (b : Stms) : Bool :=
  okP b && match Peg.parse 1000 (Compile.bytesOf s) with
  | some (some t) => eqT t (programS b)
  | _ => false
def stms : List Stm → Stms
  | [] => .nil
  | x :: l => .cons x (stms l)
def setx (x : String) (e : Ex) : Stm := .ex (.set (id! x) e)
def nothing : Ex := .chain (.lit .nil)

example : meansS "x = 3, if (x): y = 1. elsif (z): 1. else: 2." (stms [setx "x" (num 3),
    .ifs (var "x") (stms [setx "y" (num 1)]) (.elsif (var "z") (stms [.ex (num 1)]) (.els (stms [.ex (num 2)])))]) = true := by decide +kernel
example : meansS "if (a b(1)): puts 'x', y = 2 z." (stms [.ifs (.chain (.sendArgs (.send .here (id! "a")) (id! "b") (.cons (num 1) .nil)))
    (stms [.ex (.chain (.sendArgs .here (id! "puts") (.lone (.lit (.str (id! "x")))))), setx "y" (.chain (.send (.lit (.imm (pnNum 2))) (id! "z")))]) .none]) = true := by
  decide +kernel
example : meansS "while (x): if (y): x = x z., y w." (stms [.while (var "x") (stms [.ifs (var "y")
    (stms [setx "x" (.chain (.send (.send .here (id! "x")) (id! "z")))]) .none, .ex (.chain (.send (.send .here (id! "y")) (id! "w")))])]) = true := by decide +kernel

example : meansS "while (x): if (y): break. elsif (z): x = 1, continue., x = z." (stms [.while (var "x") (stms [.ifs (var "y") (stms [.brk])
    (.elsif (var "z") (stms [setx "x" (num 1), .cont]) .none), setx "x" (var "z")])]) = true := by decide +kernel
example : meansS "loop: if (y): return (z)., loop: break.." (stms [.loop (stms [.ifs (var "y") (stms [.ret (var "z")]) .none, .loop (stms [.brk])])]) = true := by decide +kernel
-- not outside of a loop
example : okP (stms [.ifs (num 1) (stms [.brk]) .none]) = false := by decide

example : meansS "x = 3, while (x): x--, if (x): break.." (stms [setx "x" (num 3), .while (var "x") (stms [.ex (.chain (.inc false false (id! "x"))),
    .ifs (var "x") (stms [.brk]) .none])]) = true := by decide +kernel
/-- Twice around. -/
def twice : Stms := stms [setx "x" (num 3), setx "y" (num 4), .while (var "x") (stms [setx "x" (var "y"), setx "y" nothing, .ex (.chain (.send .me (id! "m")))])]
example : meansS "x = 3, y = 4, while (x): x = y, y = nil, self m." twice = true := by decide +kernel
/-- It ends: the method is called twice, and the value is that of the second call. -/
theorem twice_ends : ∃ var, RunP toy 5 twice 0 ⟨fun _ => 0, []⟩ (.ok (5570, ⟨var, [[4, 1114, 5, 0], [1, 5, 1109], [4, 1114, 5, 0], [1, 5, 1109]]⟩)) := by
  simp only [RunP, twice, stms, RunB, RunS, setx]
  apply Exists.intro
  refine .inr ⟨.norm 5570, _, ?_, rfl⟩
  refine .inr ⟨_, _, .inr ⟨_, _, rfl, rfl⟩, .inr ⟨_, _, .inr ⟨_, _, rfl, rfl⟩, .inr ⟨.norm 5570, _, ?_, rfl⟩⟩⟩
  refine .again rfl (.inr ⟨_, _, .inr ⟨_, _, rfl, rfl⟩, .inr ⟨_, _, .inr ⟨_, _, rfl, rfl⟩, .inr ⟨_, _, .inr ⟨_, _, rfl, rfl⟩, rfl⟩⟩⟩) ?_
  refine .again rfl (.inr ⟨_, _, .inr ⟨_, _, rfl, rfl⟩, .inr ⟨_, _, .inr ⟨_, _, rfl, rfl⟩, .inr ⟨_, _, .inr ⟨_, _, rfl, rfl⟩, rfl⟩⟩⟩) ?_
  exact .done rfl
example : ran "x = 3, y = 4, while (x): x = y, y = nil, self m." = some (5570, [[4, 1114, 5, 0], [1, 5, 1109], [4, 1114, 5, 0], [1, 5, 1109]]) := by decide +kernel

/-- Out of a loop from inside another. -/
def leave : Stms := stms [setx "x" (num 3), setx "y" nothing, .loop (stms [.while (var "x") (stms [.ifs (var "y") (stms [.ret (num 9)]) .none, .ex (.chain (.send .me (id! "m"))), setx "y" (num 4), .cont]),
  .ex (num 7), .brk]), .ex (num 8)]
example : meansS "x = 3, y = nil, loop: while (x): if (y): return (9)., self m, y = 4, continue., 7, break., 8" leave = true := by decide +kernel
theorem leave_ends : ∃ var, RunP toy 5 leave 0 ⟨fun _ => 1, []⟩ (.ok (19, ⟨var, [[4, 1114, 5, 0], [1, 5, 1109]]⟩)) := by
  simp only [RunP, leave, stms, RunB, RunS, RunT, setx]
  apply Exists.intro
  refine .inr ⟨.ret 19, _, ?_, rfl⟩
  refine .inr ⟨_, _, .inr ⟨_, _, rfl, rfl⟩, .inr ⟨_, _, .inr ⟨_, _, rfl, rfl⟩, .inr ⟨.ret 19, _, ?_, rfl⟩⟩⟩
  refine .ret rfl (.inr ⟨.ret 19, _, ?_, rfl⟩)
  refine .cont rfl (.inr ⟨_, _, .inr ⟨_, _, rfl, rfl⟩, .inr ⟨_, _, .inr ⟨_, _, rfl, rfl⟩, .inr ⟨_, _, .inr ⟨_, _, rfl, rfl⟩, .inr ⟨_, _, rfl, rfl⟩⟩⟩⟩) ?_
  refine .ret rfl (.inr ⟨.ret 19, _, .inr ⟨_, _, rfl, ?_⟩, rfl⟩)
  exact .inr ⟨_, _, .inr ⟨_, _, rfl, rfl⟩, rfl⟩
example : ran "x = 3, y = nil, loop: while (x): if (y): return (9)., self m, y = 4, continue., 7, break., 8" = some (19, [[4, 1114, 5, 0], [1, 5, 1109]]) := by decide +kernel

/-- A program that never ends. -/
def forever : Stms := stms [.while (num 1) (stms [.ex (num 2), .cont])]
example : meansS "while (1): 2, continue." forever = true := by decide +kernel
theorem forever_runs : ∀ r, ¬ RunP toy 5 forever 0 ⟨fun _ => 0, []⟩ r := by
  have body : ∀ {v s r}, RunB toy 5 (stms [.ex (num 2), .cont]) (namesE (num 1) []) v s r → ∃ v, r = .ok (.cont v, s) := by
    intro v s r h
    simp only [stms, RunB, RunS] at h
    rcases h with ⟨_, (⟨_, h, _⟩ | ⟨_, _, h, h'⟩), _⟩ | ⟨_, _, (⟨_, h, _⟩ | ⟨_, _, h, h'⟩), h2⟩ <;> cases h <;> cases h'
    rcases h2 with ⟨_, h, _⟩ | ⟨_, _, h, h'⟩ <;> cases h
    cases h'; exact ⟨_, rfl⟩
  have loop : ∀ v s r, ¬ Loop (test toy (evalE toy 5 false (num 1) [])) (RunB toy 5 (stms [.ex (num 2), .cont]) (namesE (num 1) [])) v s r := by
    intro v s r h
    induction h with
    | fail h => cases h
    | done h => cases h
    | bodyFail _ hB | brk _ hB | ret _ hB => obtain ⟨_, h⟩ := body hB; cases h
    | again _ _ _ ih | cont _ _ _ ih => exact ih
  intro r h
  simp only [RunP, forever, stms, RunB, RunS] at h
  rcases h with ⟨_, (⟨_, h, _⟩ | ⟨_, _, h, _⟩), _⟩ | ⟨_, _, (⟨_, h, _⟩ | ⟨_, _, h, _⟩), _⟩ <;> exact loop _ _ _ h

/-- Before an `else`, a branch may only be quiet: after `1 + nil`, whose second operand is in the register of the condition, the `else` is run, too. -/
theorem C77_refuted_else : let b := stms [.ifs (num 1) (stms [.ex (.bin .plus (num 1) nothing)]) (.els (stms [.ex (num 5)]))]
    (∃ t, Peg.parse 1000 (Compile.bytesOf "if (1): 1 + nil. else: 5.") = some (some t) ∧ eqT t (programS b) = true) ∧ okP b = false ∧
    RunP toy 5 b 0 ⟨fun _ => 0, []⟩ (.ok (3, ⟨fun _ => 0, [[6, 3, 0]]⟩)) ∧
    ran "if (1): 1 + nil. else: 5." = some (11, [[6, 3, 0]]) := by
  refine ⟨?_, by decide +kernel, ?_, by decide +kernel⟩
  · have h : (Peg.parse 1000 (Compile.bytesOf "if (1): 1 + nil. else: 5.")).map (·.map fun t => eqT t
      (programS (stms [.ifs (num 1) (stms [.ex (.bin .plus (num 1) nothing)]) (.els (stms [.ex (num 5)]))]))) = some (some true) := by decide +kernel
    obtain ⟨o, h1, h2⟩ := Option.map_eq_some_iff.1 h
    obtain ⟨t, rfl, h3⟩ := Option.map_eq_some_iff.1 h2
    exact ⟨t, h1, h3⟩
  · simp only [RunP, stms, RunB, RunS]
    refine .inr ⟨.norm 3, _, .inr ⟨.norm 3, _, .inr ⟨_, _, rfl, ?_⟩, rfl⟩, rfl⟩
    exact .inr ⟨_, _, .inr ⟨_, _, rfl, rfl⟩, rfl⟩

end Potion.Send
