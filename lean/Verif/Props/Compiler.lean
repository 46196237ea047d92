import Verif.Proof.CompileOk
import Verif.Proof.CompileSize
/-!
C25 (compiled expressions), C26 (control flow).

`Spec/Lang.lean` gives syntax and evaluation of programs; `Spec/Compiler.lean` how values are shown as words (`RV`),
which programs are well scoped (`inScope`), how many registers they need (`depth`), and the restriction `guarded` under
which C26 holds; `toSrc` (Model/Ast.lean) is the tree the parser builds, `compile` (Model/Compile.lean) the compiler,
`start` and `steps` (Model/Vm.lean) the interpreter.
-/
namespace Potion.Compile
open Potion Potion.Vm Potion.Spec

/-- The word a program returns when it ends within `m` turns of the interpreter. -/
def runs (m : Nat) (f : Proto) : Option PN :=
  match (start f (.imm PN_NIL) []).bind (State.steps m) with
  | some (.done (.imm w) _) => some w
  | _ => none

/-- Well-scoped programs compile. -/
theorem C25_compiles (p : Prog) (hs : (inScope isWord isGlobal none false false p []).isSome) (hj : jumps p ≤ MAX_JUMPS) :
    (compile (toSrc p)).isSome := by
  obtain ⟨f, hf, _⟩ := compile_ok p hs hj
  rw [hf]; rfl

theorem jumps_expr : ∀ p, isExpr p = true → jumps p = 0
  | .int _, _ | .bool _, _ | .nil, _ | .var _, _ | .incr .., _ => by simp [jumps]
  | .assign _ e, h => by simp only [isExpr] at h; simp only [jumps]; exact jumps_expr e h
  | .arith _ a b, h | .rel _ a b, h | .eq _ a b, h | .and a b, h | .or a b, h => by
    simp only [isExpr, Bool.and_eq_true] at h
    simp only [jumps, jumps_expr a h.1, jumps_expr b h.2]
  | .not a, h | .bitnot a, h | .group a, h => by
    simp only [isExpr] at h; simp only [jumps]; exact jumps_expr a h
  | .nop, h | .seq .., h | .ifs .., h | .while .., h | .loop _, h | .brk, h | .cont, h | .ret _, h | .retNil, h | .fn .., h | .call .., h => by
    simp [isExpr] at h

/-- C25: every well-scoped expression of at most 255 nested registers compiles, and the interpreter returns its value and
leaves its variable updates. Partial: order comparisons are claimed for operands of the same sign only (`interpreter`; see
`C25_refuted`), and the compiled code must fit the stack and the 12-bit operands (`Roomy`). -/
theorem C25_expressions_partial (p : Prog) (hx : isExpr p = true) (hs : (inScope isWord isGlobal none false false p []).isSome)
    (hd : depth p ≤ 255) :
    ∃ f, compile (toSrc p) = some f ∧ (Roomy f 0 →
      ∀ n v env' self heap, eval interpreter n 0 [] p Store.empty = some (.val (some v), env') →
        ∃ s0 m s' r, start f self heap = some s0 ∧ State.steps m s0 = some (.done r s') ∧ Shows s' v r ∧
          ∀ (i : Nat) (x : Name), (localsOf (toSrc p))[i]? = some x → ∃ w, localVal s' i = some w ∧ Shows s' (env'.main x) w) := by
  obtain ⟨f, hf, hpl⟩ := compile_ok p hs (by rw [jumps_expr p hx]; decide)
  exact ⟨f, hf, fun hr n v env' self heap he =>
    run_program p f n 0 v env' self heap hf hd hr hpl (isExpr_guarded _ p hx) (.inl he)⟩

/-- `x = 3 + (y = 4) * 2 ` and friends: an example of the hypotheses. -/
def exExpr : Prog := .and (.assign (bytesOf "x") (.arith .plus (.int 3) (.group (.arith .times (.incr true true (bytesOf "y")) (.int 2)))))
  (.eq false (.var (bytesOf "x")) (.int 5))

example : isExpr (.assign (bytesOf "x") (.arith .plus (.int 3) (.arith .times (.int 4) (.int 2)))) = true ∧
    (inScope isWord isGlobal none false false (.assign (bytesOf "x") (.arith .plus (.int 3) (.arith .times (.int 4) (.int 2)))) []).isSome ∧
    (compile (toSrc (.assign (bytesOf "x") (.arith .plus (.int 3) (.arith .times (.int 4) (.int 2)))))).map (·.len) = some 7 := by
  decide +kernel

example : isExpr exExpr = true ∧ (inScope isWord isGlobal none false false exExpr []).isSome ∧ depth exExpr = 3 := by decide +kernel

/-- The value of a program, whatever the operands of its comparisons. -/
def value (n : Nat) (p : Prog) : Option V :=
  match eval Claims.all n n [] p Store.empty with
  | some (.val (some v), _) => some v
  | _ => none

/-- The integer or truth value of a program, for comparisons. -/
def plainValue (n : Nat) (p : Prog) : Option (Option Int × Bool) :=
  match value n p with
  | some (.int i) => some (some i, true)
  | some (.bool b) => some (none, b)
  | _ => none

/-- C25 fails as stated: `0 - 1 < 1` evaluates to `false`, since the interpreter compares tagged words as unsigned. -/
theorem C25_refuted : let p : Prog := .rel .lt (.arith .minus (.int 0) (.int 1)) (.int 1)
    plainValue 10 p = some (none, true) ∧ (compile (toSrc p)).bind (runs 20) = some (pnBool false) := by
  decide +kernel

/-- C26: every well-scoped program without calls whose branches are `guarded` runs as specified: exactly one branch of
an `if`, loops while their condition holds, `break`, `continue` and `return` where they say. Partial: see `C26_refuted`
for branches that are not `guarded`, and `interpreter` as in C25. -/
theorem C26_control_partial (p : Prog) (hs : (inScope isWord isGlobal none false false p []).isSome) (hj : jumps p ≤ MAX_JUMPS)
    (hd : depth p ≤ 255) (hg : guarded false p = true) :
    ∃ f, compile (toSrc p) = some f ∧ (Roomy f 0 →
      ∀ n v env' self heap, (eval interpreter n 0 [] p Store.empty = some (.val (some v), env') ∨
          eval interpreter n 0 [] p Store.empty = some (.ret v, env')) →
        ∃ s0 m s' r, start f self heap = some s0 ∧ State.steps m s0 = some (.done r s') ∧ Shows s' v r ∧
          ∀ (i : Nat) (x : Name), (localsOf (toSrc p))[i]? = some x → ∃ w, localVal s' i = some w ∧ Shows s' (env'.main x) w) := by
  obtain ⟨f, hf, hpl⟩ := compile_ok p hs hj
  exact ⟨f, hf, fun hr n v env' self heap he => run_program p f n 0 v env' self heap hf hd hr hpl (guarded_mono _ p hg) he⟩

/-- `i = 0, s = 0, while (i < 10): i++, if (i % 2 == 1): continue. elsif (i == 8): break. else: s = s + i. . , s` -/
def exCtl : Prog :=
  let i := bytesOf "i"
  let s := bytesOf "s"
  .seq (.assign i (.int 0)) <| .seq (.assign s (.int 0)) <| .seq
    (.while (.rel .lt (.var i) (.int 10))
      (.seq (.incr false true i)
        (.ifs (.eq false (.arith .mod (.var i) (.int 2)) (.int 1)) .cont
          (.elsif (.eq false (.var i) (.int 8)) .brk
            (.els (.assign s (.arith .plus (.var s) (.var i))))))))
    (.var s)

example : (inScope isWord isGlobal none false false exCtl []).isSome ∧ jumps exCtl = 2 ∧ depth exCtl = 2 ∧ guarded false exCtl = true ∧
    plainValue 100 exCtl = some (some 12, true) ∧ (compile (toSrc exCtl)).bind (runs 300) = some (pnNum 12) := by decide +kernel

/-- C26 fails as stated: in `x = 0, if (true): if (false): x = 1. . else: x = 2. , x` both branches run: the inner `if`
overwrites the register the `else` tests. -/
theorem C26_refuted : let x := bytesOf "x"
    let p : Prog := .seq (.assign x (.int 0)) (.seq
      (.ifs (.bool true) (.ifs (.bool false) (.assign x (.int 1)) .none) (.els (.assign x (.int 2)))) (.var x))
    plainValue 20 p = some (some 0, true) ∧ (compile (toSrc p)).bind (runs 50) = some (pnNum 2) := by
  decide +kernel

/-- Also when the branch ends in a comparison with `nil`: `x = 0, if (true): x == nil. else: x = 2. , x`. -/
theorem C26_refuted_eq : let x := bytesOf "x"
    let p : Prog := .seq (.assign x (.int 0)) (.seq
      (.ifs (.bool true) (.eq false (.var x) .nil) (.els (.assign x (.int 2)))) (.var x))
    plainValue 20 p = some (some 0, true) ∧ (compile (toSrc p)).bind (runs 50) = some (pnNum 2) := by
  decide +kernel

/-- Also when the branch is a loop: `x = 0, if (true): while (false): x = 1. . else: x = 2. , x`. -/
theorem C26_refuted_while : let x := bytesOf "x"
    let p : Prog := .seq (.assign x (.int 0)) (.seq
      (.ifs (.bool true) (.while (.bool false) (.assign x (.int 1))) (.els (.assign x (.int 2)))) (.var x))
    plainValue 20 p = some (some 0, true) ∧ (compile (toSrc p)).bind (runs 50) = some (pnNum 2) := by
  decide +kernel

/-- C54: programs with functions: a call evaluates the arguments left to right, binds fresh parameters to them, and runs the
body in the surroundings where the function was written, sharing their variables with all other functions that use them,
in nested calls and recursion, up to the `d` nested calls the stack has room for. Partial: functions introduce no
variables of their own (`inScope`; see `C54_refuted`); `guarded` as in C26, where a call in a branch counts only if the receiver
of the program is neither `nil` nor `false` (see `C54_refuted_else`); `interpreter` as in C25. -/
theorem C54_functions_partial (p : Prog) (hs : (inScope isWord isGlobal none false false p []).isSome) (hj : jumps p ≤ MAX_JUMPS)
    (hd : depth p ≤ 255) (self : Val) (hg : guarded (vtest self) p = true) :
    ∃ f, compile (toSrc p) = some f ∧ ∀ d, Roomy f d →
      ∀ n v env' heap, (eval interpreter n d [] p Store.empty = some (.val (some v), env') ∨
          eval interpreter n d [] p Store.empty = some (.ret v, env')) →
        ∃ s0 m s' r, start f self heap = some s0 ∧ State.steps m s0 = some (.done r s') ∧ Shows s' v r ∧
          ∀ (i : Nat) (x : Name), (localsOf (toSrc p))[i]? = some x → ∃ w, localVal s' i = some w ∧ Shows s' (env'.main x) w := by
  obtain ⟨f, hf, hpl⟩ := compile_ok p hs hj
  exact ⟨f, hf, fun d hr n v env' heap he => run_program p f n d v env' self heap hf hd hr hpl hg he⟩

/-- A list of statements. -/
def stmts : List Prog → Prog
  | [] => .nop
  | [a] => a
  | a :: r => .seq a (stmts r)
def args : List Prog → Args
  | [] => .nil
  | a :: r => .cons a (args r)

/-- `make = (a): (b): a = a + b, a. . , c = make(10), d = make(100), c(1), c(2), d(5) * 1000 + c(3)` -/
def exClo : Prog :=
  let v := fun s => Prog.var (bytesOf s)
  let call := fun s l => Prog.call (bytesOf s) (args l)
  stmts [.assign (bytesOf "make") (.fn [bytesOf "a"] (.fn [bytesOf "b"]
      (.seq (.assign (bytesOf "a") (.arith .plus (v "a") (v "b"))) (v "a")))),
    .assign (bytesOf "c") (call "make" [.int 10]), .assign (bytesOf "d") (call "make" [.int 100]), call "c" [.int 1], call "c" [.int 2],
    .arith .plus (.arith .times (call "d" [.int 5]) (.int 1000)) (call "c" [.int 3])]

/-- `fib = (n): if (n < 2): n. else: fib(n - 1) + fib(n - 2). . , fib(8)` -/
def exFib : Prog :=
  let n := Prog.var (bytesOf "n")
  let fib := fun a => Prog.call (bytesOf "fib") (args [a])
  stmts [.assign (bytesOf "fib") (.fn [bytesOf "n"] (.ifs (.rel .lt n (.int 2)) n
    (.els (.arith .plus (fib (.arith .minus n (.int 1))) (fib (.arith .minus n (.int 2))))))), fib (.int 8)]

example : (inScope isWord isGlobal none false false exClo []).isSome ∧ jumps exClo = 0 ∧ depth exClo = 4 ∧ guarded false exClo = true ∧
    plainValue 100 exClo = some (some 105016, true) ∧ (compile (toSrc exClo)).bind (runs 100) = some (pnNum 105016) := by decide +kernel
example : (inScope isWord isGlobal none false false exFib []).isSome ∧ jumps exFib = 0 ∧ depth exFib = 4 ∧ guarded false exFib = true ∧
    plainValue 100 exFib = some (some 21, true) ∧ (compile (toSrc exFib)).bind (runs 2000) = some (pnNum 21) := by decide +kernel

/-- `Roomy` holds of the code of every program that `fits`, a bound on the text alone. -/
theorem C54_room {p : Prog} {f : Proto} {d : Nat} (h : compile (toSrc p) = some f) (hf : fits p d) : Roomy f d := fits_roomy h hf

example : fits exFib 200 ∧ fits exClo 100 ∧ fits exCtl 0 := by unfold fits; decide +kernel

/-- C54 fails for functions with variables of their own: `n = 0, inc = (): n = n + 1. , f = (): x = 100. , inc(), f(), n` gives
100: the call of `f` takes the stack word `inc` kept its reference to `n` in for a variable that has been captured, and
stores 100 there. -/
theorem C54_refuted : let n := Prog.var (bytesOf "n")
    let p := stmts [.assign (bytesOf "n") (.int 0), .assign (bytesOf "inc") (.fn [] (.assign (bytesOf "n") (.arith .plus n (.int 1)))),
      .assign (bytesOf "f") (.fn [] (.assign (bytesOf "x") (.int 100))), .call (bytesOf "inc") .nil, .call (bytesOf "f") .nil, n]
    plainValue 20 p = some (some 1, true) ∧ (compile (toSrc p)).bind (runs 100) = some (pnNum 100) := by
  decide +kernel

/-- C54 fails when a branch with an `else` ends in a call and the receiver of the program is `nil`: in
`x = 0, f = (): 1. , if (true): f(). else: x = 2. , x` both branches run. -/
theorem C54_refuted_else : let x := bytesOf "x"
    let p := stmts [.assign x (.int 0), .assign (bytesOf "f") (.fn [] (.int 1)),
      .ifs (.bool true) (.call (bytesOf "f") .nil) (.els (.assign x (.int 2))), .var x]
    plainValue 20 p = some (some 0, true) ∧ (compile (toSrc p)).bind (runs 100) = some (pnNum 2) := by
  decide +kernel

end Potion.Compile
