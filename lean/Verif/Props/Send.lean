import Verif.Props.Agree
import Verif.Proof.Send8
/-! C77: a message is sent to the value before it. -/
namespace Potion.Send
open Potion Potion.Peg Potion.CompileAll

/-- C77: a program of expressions (Spec/Send.lean) is compiled, and if the code fits into the fields of its instructions, running it does what the program means,
whatever the objects are. -/
theorem C77_run (dl : List (BitVec 8) → Bool) (es : List Ex) (h : ∀ e ∈ es, okE e = true) : ∃ N, ∀ n ≥ N, ∃ f, compile dl n (program es) = some f ∧
    (f.fits → ∀ (V S E : Type) (W : World V S E) (me : V) (reg : Nat → V) (m : S),
      Gives W me f ⟨0, reg, fun _ => W.const .nil, m⟩ (evalP W me es [] (reg 0) ⟨fun _ => W.const .nil, m⟩)) := program_ok dl es h

/-! ### Texts -/

mutual
/-- Equal trees. -/
def eqT : Tree → Tree → Bool
  | .imm a, .imm b => a == b
  | .str a, .str b | .dbl a, .dbl b => a == b
  | .tup l, .tup l' => eqTs l l'
  | .node k a b c, .node k' a' b' c' => decide (k = k') && eqT a a' && eqT b b' && eqT c c'
  | _, _ => false
def eqTs : List Tree → List Tree → Bool
  | [], [] => true
  | a :: l, b :: l' => eqT a b && eqTs l l'
  | _, _ => false
end

/-- The text is this program, one of those above. -/
def means (s : String) (es : List Ex) : Bool :=
  es.all okE && match Peg.parse 1000 (Compile.bytesOf s) with
  | some (some t) => eqT t (program es)
  | _ => false

def id! (s : String) : Ident := Compile.bytesOf s
def num (i : Int) : Ex := .chain (.lit (.imm (pnNum i)))
def var (s : String) : Ex := .chain (.send .here (id! s))

example : means "x = 3\nx + 4 length" [.set (id! "x") (num 3), .bin .plus (var "x") (.chain (.send (.lit (.imm (pnNum 4))) (id! "length")))] = true := by decide +kernel
example : means "a b(1, 2) c" [.chain (.send (.sendArgs (.send .here (id! "a")) (id! "b") (.cons (num 1) (.cons (num 2) .nil))) (id! "c"))] = true := by decide +kernel
example : means "f()" [.chain (.sendArgs .here (id! "f") .nil)] = true := by decide +kernel
example : means "f(1)(2)" [.chain (.apply (.sendArgs .here (id! "f") (.cons (num 1) .nil)) (.cons (num 2) .nil))] = true := by decide +kernel
example : means "a ?b" [.chain (.ask (.send .here (id! "a")) (id! "b"))] = true := by decide +kernel
example : means "a ?b(1)" [.chain (.askArgs (.send .here (id! "a")) (id! "b") (.cons (num 1) .nil))] = true := by decide +kernel
example : means "/x = 5, self/x" [.setPath .here (id! "x") (num 5), .chain (.path false .me (id! "x"))] = true := by decide +kernel
example : means "a b = 5" [.defMethod (.send .here (id! "a")) (id! "b") (num 5)] = true := by decide +kernel
example : means "X = 5" [.define (id! "X") (num 5)] = true := by decide +kernel
example : means "(1, k=2)" [.chain (.list (.cons (num 1) (.pair (id! "k") (num 2) .nil)))] = true := by decide +kernel
example : means "!a and (b or 3)" [.and (.chain (.not (var "a"))) (.chain (.list (.cons (.or (var "b") (num 3)) .nil)))] = true := by decide +kernel
example : means "\"abc\" length == 3" [.bin .eq (.chain (.send (.lit (.str (id! "abc"))) (id! "length"))) (num 3)] = true := by decide +kernel
example : means "~3" [.chain (.bitnot (num 3))] = true := by decide +kernel

example : means "x[2]" [.chain (.index (id! "x") (.num 2))] = true := by decide +kernel
example : means "x[k] length" [.chain (.send (.index (id! "x") (.var (id! "k"))) (id! "length"))] = true := by decide +kernel
example : means "x++" [.chain (.inc false true (id! "x"))] = true := by decide +kernel
example : means "--x puts" [.chain (.send (.inc true false (id! "x")) (id! "puts"))] = true := by decide +kernel
example : means "x = 1, x++ + x-- * ++x" [.set (id! "x") (num 1), .bin .plus (.chain (.inc false true (id! "x")))
    (.bin .times (.chain (.inc false false (id! "x"))) (.chain (.inc true true (id! "x"))))] = true := by decide +kernel
example : means "x['k']" [.chain (.index (id! "x") (.lit (.str (id! "k"))))] = true := by decide +kernel
example : means "[a, b 'x', c [d] (k=1), e (2)]" [.chain (.licks (.item (id! "a") .here (.item (id! "b") (.lit (.str (id! "x")))
  (.attrs (id! "c") (.licks (.item (id! "d") .here .nil)) (.pair (id! "k") (num 1) .nil) (.attrs (id! "e") .here (.cons (num 2) .nil) .nil)))))] = true := by decide +kernel
example : means "x(1, 2) = 3" [.setCall (id! "x") (.cons (num 1) (.cons (num 2) .nil)) (num 3)] = true := by decide +kernel

example : means "a print 'x' b" [.chain (.send (.sendArgs (.send .here (id! "a")) (id! "print") (.lone (.lit (.str (id! "x"))))) (id! "b"))] = true := by decide +kernel
example : means "x = 1, puts x[0]" [.set (id! "x") (num 1), .chain (.sendArgs .here (id! "puts") (.lone (.index (id! "x") (.num 0))))] = true := by decide +kernel

/-! ### A world where everything is a number and every operation is written down -/

def toy : World Nat (List (List Nat)) Nat where
  const | .imm w => w.toNat | .str l => 1000 + (l.map (·.toNat)).sum | _ => 0
  truth v := v != 0
  bool b := if b then 1 else 0
  kind v _ := if v = 1 then .cls else if v = 2 then .other else .closure
  bind r m s := .ok (r + m, [1, r, m] :: s)
  message r m s := if m = 0 then .error r else .ok (r + m, [2, r, m] :: s)
  new c s := .ok (s.length, [3, c] :: s)
  ctor _ _ := 9
  callOf _ _ := 10
  enter f o as s := .ok (f * o + as.sum, ([4, f, o] ++ as) :: s)
  spill _ _ _ _ _ := 77
  apply f o as s := .ok (as.sum, ([5, f, o] ++ as) :: s)
  op _ x y s := .ok (x + y, [6, x, y] :: s)
  bitn x s := .ok (x, s)
  tuple s := .ok (s.length, [7] :: s)
  push t v s := .ok (t, [8, t, v] :: s)
  put t k v s := .ok ([9, t, k, v] :: s)
  get o x s := .ok (o + x, [10, o, x] :: s)
  set o x v s := .ok ([11, o, x, v] :: s)
  global x v s := .ok ([12, x, v] :: s)
  defMethod o m v s := .ok (v, [13, o, m, v] :: s)
  tupleAt t i s := .ok (t + i, [14, t, i] :: s)
  tableAt t k s := .ok (t + k, [15, t, k] :: s)
  lick n i a s := .ok (n + i + a, [16, n, i, a] :: s)
  callset v s := v + s.length

/-- What the program in a text comes to. -/
def ran (s : String) : Option (Nat × List (List Nat)) := (ofText s).bind fun f => match run toy 5 f 100 ⟨0, fun _ => 0, fun _ => 0, []⟩ with
  | .done v m => some (v, m)
  | _ => none
def evaluated (es : List Ex) : Option (Nat × List (List Nat)) := match evalP toy 5 es [] 0 ⟨fun _ => 0, []⟩ with
  | .ok (v, s) => some (v, s.mem)
  | .error _ => none

/-- Receiver, method, arguments from left to right, the call, and on with its result. -/
def chained : List Ex := [.set (id! "x") (num 3),
  .chain (.send (.sendArgs (.send .here (id! "x")) (id! "b") (.cons (.chain (.send (num1 4) (id! "d"))) (.cons (num 2) .nil))) (id! "c"))]
where num1 (i : Int) : Chain := .lit (.imm (pnNum i))
example : means "x = 3, x b(4 d, 2) c" chained = true ∧ evaluated chained = ran "x = 3, x b(4 d, 2) c" ∧ (ran "x = 3, x b(4 d, 2) c").isSome = true := by
  decide +kernel
/-- Elements, licks, `x(…) = e`. -/
def elements : List Ex := [.set (id! "x") (num 3), .set (id! "k") (num 4), .setCall (id! "x") (.cons (num 1) (.cons (num 2) .nil)) (num 5),
  .chain (.send (.licks (.item (id! "a") .here (.item (id! "b") (.index (id! "x") (.var (id! "k")))
    (.attrs (id! "c") (.licks (.item (id! "d") (.lit (.str (id! "y"))) .nil)) (.pair (id! "k") (num 1) .nil) (.attrs (id! "e") .here (.cons (num 2) .nil) .nil))))) (id! "f")),
  .bin .plus (.chain (.index (id! "x") (.num 7))) (.chain (.index (id! "k") (.lit (.str (id! "z"))))),
  .chain (.sendArgs (.send .here (id! "x")) (id! "f") (.lone (.lit (.imm (pnNum 8)))))]
example : means "x = 3, k = 4, x(1, 2) = 5, [a, b x[k], c [d 'y'] (k=1), e (2)] f, x[7] + k['z'], x f 8" elements = true ∧
    evaluated elements = ran "x = 3, k = 4, x(1, 2) = 5, [a, b x[k], c [d 'y'] (k=1), e (2)] f, x[7] + k['z'], x f 8" ∧
    (evaluated elements).isSome = true := by decide +kernel
/-- `x++` is the value before, `++x` the one after; the variable has changed for what follows. -/
def counting : List Ex := [.set (id! "x") (num 1), .bin .plus (.chain (.inc false true (id! "x"))) (.bin .times (.chain (.inc false false (id! "x")))
  (.chain (.inc true true (id! "x"))))]
example : evaluated counting = ran "x = 1, x++ + x-- * ++x" ∧ (evaluated counting).isSome = true := by decide +kernel
instance (f : Fn) : Decidable f.fits := by unfold Fn.fits; infer_instance
/-- The code of this text fits. -/
example : ∃ f, ofText "x = 3, x b(4 d, 2) c" = some f ∧ f.fits := by
  have h : (ofText "x = 3, x b(4 d, 2) c").map (fun f => decide (f.fits)) = some true := by decide +kernel
  obtain ⟨f, h1, h2⟩ := Option.map_eq_some_iff.1 h
  exact ⟨f, h1, of_decide_eq_true h2⟩

/-! ### Not so -/

/-- compile.c:187-197: an operand that begins with a list is compiled as the elements of the list, each into the register of the operand. What is sent to the list
is not sent: `(7, 8) length + 1` is 9, no list is made and nothing is asked for its length. -/
theorem C77_refuted_operand : (∃ t, Peg.parse 1000 (Compile.bytesOf "(7, 8) length + 1") = some (some t) ∧
      eqT t (program [.bin .plus (.chain (.send (.list (.cons (num 7) (.cons (num 8) .nil))) (id! "length"))) (num 1)]) = true) ∧
    ∃ f, ofText "(7, 8) length + 1" = some f ∧ ∀ (V S E : Type) (W : World V S E) (me : V) (reg loc : Nat → V) (m : S),
      run W me f 5 ⟨0, reg, loc, m⟩ = match W.op .add (W.const (.imm (pnNum 8))) (W.const (.imm (pnNum 1))) m with
        | .ok (v, m) => .done v m
        | .error e => .stop e := by
  constructor
  · have h : (match Peg.parse 1000 (Compile.bytesOf "(7, 8) length + 1") with
      | some (some t) => eqT t (program [.bin .plus (.chain (.send (.list (.cons (num 7) (.cons (num 8) .nil))) (id! "length"))) (num 1)])
      | _ => false) = true := by decide +kernel
    split at h
    · rename_i t ht; exact ⟨t, ht, h⟩
    · contradiction
  · have h : (ofText "(7, 8) length + 1").map listing = some (2, [⟨.loadpn, 0, 15⟩, ⟨.loadpn, 0, 17⟩, ⟨.loadpn, 1, 3⟩, ⟨.add, 0, 1⟩, ⟨.ret, 0, 0⟩]) := by decide +kernel
    obtain ⟨f, h1, h2⟩ := Option.map_eq_some_iff.1 h
    refine ⟨f, h1, fun V S E W me reg loc m => ?_⟩
    simp only [listing, Prod.mk.injEq] at h2
    have hl : f.len = 5 := by simpa using congrArg List.length h2.2
    have hc : f.code 0 = ⟨.loadpn, 0, 15⟩ ∧ f.code 1 = ⟨.loadpn, 0, 17⟩ ∧ f.code 2 = ⟨.loadpn, 1, 3⟩ ∧ f.code 3 = ⟨.add, 0, 1⟩ ∧ f.code 4 = ⟨.ret, 0, 0⟩ := by
      have := h2.2
      rw [hl] at this
      simpa [List.range_succ] using this
    obtain ⟨c0, c1, c2, c3, c4⟩ := hc
    have s0 : ∀ reg : Nat → V, step W me f ⟨0, reg, loc, m⟩ = .go ⟨1, upd reg 0 (W.const (.imm (pnNum 7))), loc, m⟩ := fun reg => by
      unfold step; dsimp only; rw [hl, if_pos (by decide), c0]; rfl
    have s1 : ∀ reg : Nat → V, step W me f ⟨1, reg, loc, m⟩ = .go ⟨2, upd reg 0 (W.const (.imm (pnNum 8))), loc, m⟩ := fun reg => by
      unfold step; dsimp only; rw [hl, if_pos (by decide), c1]; rfl
    have s2 : ∀ reg : Nat → V, step W me f ⟨2, reg, loc, m⟩ = .go ⟨3, upd reg 1 (W.const (.imm (pnNum 1))), loc, m⟩ := fun reg => by
      unfold step; dsimp only; rw [hl, if_pos (by decide), c2]; rfl
    have s3 : ∀ reg : Nat → V, step W me f ⟨3, reg, loc, m⟩ = St.res ⟨3, reg, loc, m⟩ 0 (W.op .add (reg 0) (reg 1) m) := fun reg => by
      unfold step; dsimp only; rw [hl, if_pos (by decide), c3]; rfl
    have s4 : ∀ (reg : Nat → V) (m : S), step W me f ⟨4, reg, loc, m⟩ = .done (reg 0) m := fun reg m => by
      unfold step; dsimp only; rw [hl, if_pos (by decide), c4]; rfl
    simp only [run, s0, s1, s2, s3]
    rw [upd_same, upd_other (by decide), upd_same]
    cases W.op .add (W.const (.imm (pnNum 8))) (W.const (.imm (pnNum 1))) m with
    | error e => rfl
    | ok p => simp only [St.res, s4, upd_same]

theorem listing_code {f : Fn} {n : Nat} {l : List Ins} (h : listing f = (n, l)) : f.len = l.length ∧ ∀ i (hi : i < l.length), f.code i = l[i] := by
  simp only [listing, Prod.mk.injEq] at h
  have hl : f.len = l.length := by simpa using congrArg List.length h.2
  refine ⟨hl, fun i hi => ?_⟩
  have := h.2
  subst this
  simp

/-- `^`, `&` and `|` have no case in the compiler: `5 | 2` is compiled to no code; its value is what the register holds. -/
theorem C77_refuted_bits : ∃ f, ofText "5 | 2" = some f ∧ ∀ (V S E : Type) (W : World V S E) (me : V) (reg loc : Nat → V) (m : S),
    run W me f 1 ⟨0, reg, loc, m⟩ = .done (reg 0) m := by
  have h : (ofText "5 | 2").map listing = some (1, [⟨.ret, 0, 0⟩]) := by decide +kernel
  obtain ⟨f, h1, h2⟩ := Option.map_eq_some_iff.1 h
  refine ⟨f, h1, fun V S E W me reg loc m => ?_⟩
  obtain ⟨hl, hc⟩ := listing_code h2
  have c0 := hc 0 (by decide)
  simp only [run, step]
  rw [hl, if_pos (by decide), c0]; rfl

/-- compile.c:511-514: `?x = 4`, the assignment of a variable that is nil or false, does not assign: the value is overwritten with the variable, and the
store left out. -/
theorem C77_refuted_default : ∃ f, ofText "x = nil, ?x = 4, x" = some f ∧ ∀ (V S E : Type) (W : World V S E) (me : V) (reg loc : Nat → V) (m : S),
    W.truth (W.const .nil) = false → run W me f 7 ⟨0, reg, loc, m⟩ = .done (W.const .nil) m := by
  have h : (ofText "x = nil, ?x = 4, x").map listing = some (1, [⟨.loadpn, 0, 0⟩, ⟨.setlocal, 0, 0⟩, ⟨.loadpn, 0, 9⟩, ⟨.getlocal, 0, 0⟩, ⟨.testjmp, 0, 1⟩,
      ⟨.getlocal, 0, 0⟩, ⟨.ret, 0, 0⟩]) := by decide +kernel
  obtain ⟨f, h1, h2⟩ := Option.map_eq_some_iff.1 h
  refine ⟨f, h1, fun V S E W me reg loc m ht => ?_⟩
  obtain ⟨hl, hc⟩ := listing_code h2
  have s0 : ∀ reg loc : Nat → V, step W me f ⟨0, reg, loc, m⟩ = .go ⟨1, upd reg 0 (W.const .nil), loc, m⟩ := fun reg loc => by
    unfold step; dsimp only; rw [hl, if_pos (by decide), hc 0 (by decide)]; rfl
  have s1 : ∀ reg loc : Nat → V, step W me f ⟨1, reg, loc, m⟩ = .go ⟨2, reg, upd loc 0 (reg 0), m⟩ := fun reg loc => by
    unfold step; dsimp only; rw [hl, if_pos (by decide), hc 1 (by decide)]; rfl
  have s2 : ∀ reg loc : Nat → V, step W me f ⟨2, reg, loc, m⟩ = .go ⟨3, upd reg 0 (W.const (.imm 9)), loc, m⟩ := fun reg loc => by
    unfold step; dsimp only; rw [hl, if_pos (by decide), hc 2 (by decide)]; rfl
  have s3 : ∀ reg loc : Nat → V, step W me f ⟨3, reg, loc, m⟩ = .go ⟨4, upd reg 0 (loc 0), loc, m⟩ := fun reg loc => by
    unfold step; dsimp only; rw [hl, if_pos (by decide), hc 3 (by decide)]; rfl
  have s4 : ∀ reg loc : Nat → V, W.truth (reg 0) = false → step W me f ⟨4, reg, loc, m⟩ = .go ⟨5, reg, loc, m⟩ := fun reg loc ht => by
    unfold step; dsimp only; rw [hl, if_pos (by decide), hc 4 (by decide)]
    show Out.go { (⟨4, reg, loc, m⟩ : St V S) with pos := if W.truth (reg 0) = true then _ else _ } = _
    rw [ht]; rfl
  have s5 : ∀ reg loc : Nat → V, step W me f ⟨5, reg, loc, m⟩ = .go ⟨6, upd reg 0 (loc 0), loc, m⟩ := fun reg loc => by
    unfold step; dsimp only; rw [hl, if_pos (by decide), hc 5 (by decide)]; rfl
  have s6 : ∀ reg loc : Nat → V, step W me f ⟨6, reg, loc, m⟩ = .done (reg 0) m := fun reg loc => by
    unfold step; dsimp only; rw [hl, if_pos (by decide), hc 6 (by decide)]; rfl
  simp only [run, s0, s1, s2, s3]
  rw [s4 _ _ (by rw [upd_same, upd_same, upd_same]; exact ht)]
  simp only [s5, s6, upd_same]

/-- The value of an assignment is the value assigned, but not if a field is assigned to: then it is the object. -/
theorem C77_refuted_assign {V S E : Type} (W : World V S E) (me : V) (x : Ident) (v : Tree) (K : List Ident) (s : Mem V S) (m : S)
    (h : W.set me (W.const (.str x)) (W.const v) s.mem = .ok m) :
    evalE W me false (.setPath .here x (.chain (.lit v))) K s = .ok (me, ⟨s.var, m⟩) ∧
    evalE W me false (.set x (.chain (.lit v))) K s = .ok (W.const v, ⟨fun y => if y = x then W.const v else s.var y, s.mem⟩) := by
  constructor
  · simp only [evalE, evalC]
    show (prim_ _ >>= fun _ => pure me) s = _
    rw [bind_ok (a := ()) (s' := { s with mem := m }) (by unfold prim_; rw [h])]
    rfl
  · simp only [evalE, evalC]; rfl

/-- compile.c:379-384: the number of an element from 1024 on is put into a register, but the instruction says that the number of the register is the number of the
element: `x[1024]` is `x[1]`. -/
theorem C77_refuted_index : ∃ f, ofText "x[1024]" = some f ∧ ∀ (V S E : Type) (W : World V S E) (me : V) (reg loc : Nat → V) (m : S),
    run W me f 4 ⟨0, reg, loc, m⟩ = match W.tupleAt (loc 0) (W.const (.imm (pnNum 1))) m with
      | .ok (v, m) => .done v m
      | .error e => .stop e := by
  have h : (ofText "x[1024]").map (fun f => (listing f, f.values.length, (f.values[0]?.map fun v => eqT v (.imm (pnNum 1024))))) =
    some ((2, [⟨.getlocal, 0, 0⟩, ⟨.loadk, 1, 0⟩, ⟨.gettuple, 0, 1⟩, ⟨.ret, 0, 0⟩]), 1, some true) := by decide +kernel
  obtain ⟨f, h1, h2⟩ := Option.map_eq_some_iff.1 h
  simp only [Prod.mk.injEq] at h2
  obtain ⟨h2, h3, h4⟩ := h2
  refine ⟨f, h1, fun V S E W me reg loc m => ?_⟩
  obtain ⟨hl, hc⟩ := listing_code h2
  obtain ⟨k, hk⟩ : ∃ k, f.values[0]? = some k := by
    cases hv : f.values[0]? with
    | none => rw [hv] at h4; contradiction
    | some k => exact ⟨k, rfl⟩
  have s0 : ∀ reg : Nat → V, step W me f ⟨0, reg, loc, m⟩ = .go ⟨1, upd reg 0 (loc 0), loc, m⟩ := fun reg => by
    unfold step; dsimp only; rw [hl, if_pos (by decide), hc 0 (by decide)]; rfl
  have s1 : ∀ reg : Nat → V, step W me f ⟨1, reg, loc, m⟩ = .go ⟨2, upd reg 1 (W.const k), loc, m⟩ := fun reg => by
    rw [step_loadk (a := 1) (b := 0) ⟨by rw [hl]; decide, hc 1 (by decide)⟩ hk]; rfl
  have s2 : ∀ reg : Nat → V, step W me f ⟨2, reg, loc, m⟩ = St.res ⟨2, reg, loc, m⟩ 0 (W.tupleAt (reg 0) (W.const (.imm (pnNum 1))) m) := fun reg => by
    rw [step_gettuple (a := 0) (b := 1) ⟨by rw [hl]; decide, hc 2 (by decide)⟩]; rfl
  have s3 : ∀ (reg : Nat → V) (m : S), step W me f ⟨3, reg, loc, m⟩ = .done (reg 0) m := fun reg m => by
    unfold step; dsimp only; rw [hl, if_pos (by decide), hc 3 (by decide)]; rfl
  simp only [run, s0, s1, s2]
  rw [upd_other (by decide), upd_same]
  cases W.tupleAt (loc 0) (W.const (.imm (pnNum 1))) m with
  | error e => rfl
  | ok p => simp only [St.res, s3, upd_same]

/-- syntax.y:172, compile.c:866-879: a lick that is only a value is named by the piece of the syntax tree that stands for the value, not by the value: the lick in
`[5]` is not named 5. -/
theorem C77_refuted_lick : ∃ f, ofText "[5]" = some f ∧ ∀ (V S E : Type) (W : World V S E) (me : V) (reg loc : Nat → V) (m : S),
    run W me f 5 ⟨0, reg, loc, m⟩ = match W.tuple m with
      | .error e => .stop e
      | .ok (t, m) => match W.lick (W.const (leaf .value (.imm (pnNum 5)))) (W.const .nil) (W.const .nil) m with
        | .error e => .stop e
        | .ok (l, m) => match W.push t l m with
          | .error e => .stop e
          | .ok (v, m) => .done v m := by
  have h : (ofText "[5]").map (fun f => (listing f, match f.values with
      | [.node k (.imm w) (.imm 0) (.imm 0)] => (k, w)
      | _ => (.lick, 0))) =
    some ((2, [⟨.newtuple, 0, 0⟩, ⟨.loadk, 1, 0⟩, ⟨.newlick, 1, 1⟩, ⟨.settuple, 0, 1⟩, ⟨.ret, 0, 0⟩]), .value, pnNum 5) := by decide +kernel
  obtain ⟨f, h1, h2⟩ := Option.map_eq_some_iff.1 h
  simp only [Prod.mk.injEq] at h2
  obtain ⟨h2, h3⟩ := h2
  have hk : f.values[0]? = some (leaf .value (.imm (pnNum 5))) := by
    split at h3
    · rename_i k w hv
      simp only [Prod.mk.injEq] at h3
      rw [hv, h3.1, h3.2]; rfl
    · simp at h3
  refine ⟨f, h1, fun V S E W me reg loc m => ?_⟩
  obtain ⟨hl, hc⟩ := listing_code h2
  have s0 : ∀ reg : Nat → V, step W me f ⟨0, reg, loc, m⟩ = St.res ⟨0, reg, loc, m⟩ 0 (W.tuple m) := fun reg => by
    rw [step_newtuple (a := 0) (b := 0) ⟨by rw [hl]; decide, hc 0 (by decide)⟩]
  have s1 : ∀ (reg : Nat → V) (m : S), step W me f ⟨1, reg, loc, m⟩ = .go ⟨2, upd reg 1 (W.const (leaf .value (.imm (pnNum 5)))), loc, m⟩ := fun reg m => by
    rw [step_loadk (a := 1) (b := 0) ⟨by rw [hl]; decide, hc 1 (by decide)⟩ hk]; rfl
  have s2 : ∀ (reg : Nat → V) (m : S), step W me f ⟨2, reg, loc, m⟩ = St.res ⟨2, reg, loc, m⟩ 1 (W.lick (reg 1) (W.const .nil) (W.const .nil) m) := fun reg m => by
    rw [step_newlick (a := 1) (b := 1) ⟨by rw [hl]; decide, hc 2 (by decide)⟩]; rfl
  have s3 : ∀ (reg : Nat → V) (m : S), step W me f ⟨3, reg, loc, m⟩ = St.res ⟨3, reg, loc, m⟩ 0 (W.push (reg 0) (reg 1) m) := fun reg m => by
    rw [step_settuple (a := 0) (b := 1) ⟨by rw [hl]; decide, hc 3 (by decide)⟩]
  have s4 : ∀ (reg : Nat → V) (m : S), step W me f ⟨4, reg, loc, m⟩ = .done (reg 0) m := fun reg m => by
    unfold step; dsimp only; rw [hl, if_pos (by decide), hc 4 (by decide)]; rfl
  simp only [run, s0]
  cases W.tuple m with
  | error e => rfl
  | ok p =>
    obtain ⟨t, m1⟩ := p
    simp only [St.res, s1, s2]
    rw [upd_same]
    cases W.lick (W.const (leaf .value (.imm (pnNum 5)))) (W.const .nil) (W.const .nil) m1 with
    | error e => rfl
    | ok q =>
      obtain ⟨l, m2⟩ := q
      simp only [s3]
      rw [upd_same, upd_other (by decide), upd_other (by decide), upd_same]
      cases W.push t l m2 with
      | error e => rfl
      | ok r =>
        obtain ⟨v, m3⟩ := r
        simp only [St.res, s4, upd_same]

/-- compile.c:493-497: `/y(1) = 5` does not ask self for `y`: it looks in the string "y" for a field with the name that happens to be in a register not yet used. -/
theorem C77_refuted_setcall : ∃ f, ofText "/y(1) = 5" = some f ∧ ∀ (V S E : Type) (W : World V S E) (me : V) (reg loc : Nat → V) (m : S) (e : E),
    W.get (W.const (.str (id! "y"))) (reg 2) m = .error e → run W me f 3 ⟨0, reg, loc, m⟩ = .stop e := by
  have h : (ofText "/y(1) = 5").map (fun f => (listing f, f.values.length, (f.values[0]?.map fun v => eqT v (.str (id! "y"))))) =
    some ((4, [⟨.self, 0, 0⟩, ⟨.loadk, 1, 0⟩, ⟨.getpath, 1, 2⟩, ⟨.callset, 0, 1⟩, ⟨.loadpn, 2, 3⟩, ⟨.loadpn, 3, 11⟩, ⟨.call, 0, 3⟩, ⟨.ret, 0, 0⟩]), 1, some true) := by
    decide +kernel
  obtain ⟨f, h1, h2⟩ := Option.map_eq_some_iff.1 h
  simp only [Prod.mk.injEq] at h2
  obtain ⟨h2, h3, h4⟩ := h2
  refine ⟨f, h1, fun V S E W me reg loc m e he => ?_⟩
  obtain ⟨hl, hc⟩ := listing_code h2
  have hk : f.values[0]? = some (.str (id! "y")) := by
    cases hv : f.values[0]? with
    | none => rw [hv] at h4; contradiction
    | some k =>
      rw [hv] at h4
      cases k with
      | str s =>
        simp only [Option.map_some, eqT, Option.some.injEq, beq_iff_eq] at h4
        rw [h4]
      | _ => simp [eqT] at h4
  have s0 : ∀ reg : Nat → V, step W me f ⟨0, reg, loc, m⟩ = .go ⟨1, upd reg 0 me, loc, m⟩ := fun reg => by
    rw [step_self (a := 0) (b := 0) ⟨by rw [hl]; decide, hc 0 (by decide)⟩]; rfl
  have s1 : ∀ (reg : Nat → V), step W me f ⟨1, reg, loc, m⟩ = .go ⟨2, upd reg 1 (W.const (.str (id! "y"))), loc, m⟩ := fun reg => by
    rw [step_loadk (a := 1) (b := 0) ⟨by rw [hl]; decide, hc 1 (by decide)⟩ hk]; rfl
  have s2 : ∀ (reg : Nat → V), step W me f ⟨2, reg, loc, m⟩ = St.res ⟨2, reg, loc, m⟩ 1 (W.get (reg 1) (reg 2) m) := fun reg => by
    rw [step_getpath (a := 1) (b := 2) ⟨by rw [hl]; decide, hc 2 (by decide)⟩]
  simp only [run, s0, s1, s2]
  rw [upd_same, upd_other (by decide), upd_other (by decide), he]
  rfl

end Potion.Send
