import Verif.Model.Word
/-!
Specification of parsing expression grammars with actions, as written for greg (/repo/tools): what a grammar accepts, which
actions a parse calls for, and what running these means.
-/
namespace Potion.Greg

abbrev Byte := BitVec 8

mutual
/-- Expressions of a grammar. -/
inductive Exp
  | any                              -- .
  | chr (c : Byte)                   -- 'c', a literal of one character
  | str (s : List Byte)              -- "abc", any other literal
  | cls (text : List Byte)           -- [text]
  | name (r : Nat) (v : Option Nat)  -- rule number r; v:rule
  | act (a : Nat)                    -- { action number a }
  | pred (p : Nat)                   -- &{ condition number p }
  | open                             -- <
  | close                            -- >
  | err (e : Exp) (k : Nat)          -- e ~{ statement number k }
  | alt (l : Exps)                   -- a | b | c
  | seq (l : Exps)                   -- a b c
  | peek (e : Exp)                   -- &e
  | not (e : Exp)                    -- !e
  | opt (e : Exp)                    -- e?
  | star (e : Exp)                   -- e*
  | plus (e : Exp)                   -- e+
inductive Exps
  | nil
  | cons (e : Exp) (l : Exps)
end

/-- A rule: its number of variables and its expression. -/
structure Rule where
  nvars : Nat
  body : Exp

abbrev Grammar := List Rule

/-- What a parse calls for: a rule is entered, left, its value is assigned to variable `v` of the rule `r` that called
it; action `a` of rule `r` is run on the text between two positions. -/
inductive Ev
  | enter (r : Nat)
  | leave (r : Nat)
  | set (r v : Nat)
  | act (r a b e : Nat)
  deriving DecidableEq

/-- Where the last `<` and `>` were, and the error statements run. They are not undone when a part fails. -/
structure Marks where
  b : Nat
  e : Nat
  errs : List Nat
  deriving DecidableEq

/-- Success: the position after the match, what it calls for. -/
inductive Res
  | ok (pos : Nat) (evs : List Ev) (m : Marks)
  | fail (m : Marks)

/-- The text from position `b` to `e`. -/
def slice (inp : List Byte) (b e : Nat) : List Byte := (inp.drop b).take (e - b)

/-- One character in a class, before `next`: itself, or an escape. -/
inductive ClassChar : (text : List Byte) → (next : List Byte) → Byte → Prop
  | plain {c n} : c ≠ 0 → c ≠ 0x5C → ClassChar [c] n c
  | control {c v n} : (c, v) ∈ [(0x61#8, 7#8), (0x62, 8), (0x65, 27), (0x66, 12), (0x6E, 10), (0x72, 13), (0x74, 9), (0x76, 11)] →
      ClassChar [0x5C, c] n v
  | quoted {c n} : c ∈ [0x27#8, 0x22, 0x5B, 0x5D, 0x5C] → ClassChar [0x5C, c] n c
  | octal3 {a b c v : Nat} {n} : a ≤ 3 → b ≤ 7 → c ≤ 7 → v = a * 64 + b * 8 + c → v ≠ 0 →
      ClassChar [0x5C, BitVec.ofNat 8 (0x30 + a), BitVec.ofNat 8 (0x30 + b), BitVec.ofNat 8 (0x30 + c)] n (BitVec.ofNat 8 v)
  | octal2 {a b v : Nat} {n} : a ≤ 7 → b ≤ 7 → v = a * 8 + b → v ≠ 0 → (∀ c r, n = c :: r → ¬(0x30#8 ≤ c ∧ c ≤ 0x37#8)) →
      ClassChar [0x5C, BitVec.ofNat 8 (0x30 + a), BitVec.ofNat 8 (0x30 + b)] n (BitVec.ofNat 8 v)

/-- The characters of a class: characters and ranges; `-` stands for itself at the start and at the end only. -/
inductive ClassSet : (first : Bool) → List Byte → (Byte → Prop) → Prop
  | nil {f} : ClassSet f [] fun _ => False
  | one {f s r c p} : ClassChar s r c → (c = 0x2D → s = [0x2D] ∧ (f = true ∨ r = [])) →
      (∀ x r', r = 0x2D :: x :: r' → False) → ClassSet false r p → ClassSet f (s ++ r) fun x => x = c ∨ p x
  | range {f s t r a b p} : ClassChar s (0x2D :: (t ++ r)) a → (a = 0x2D → s = [0x2D] ∧ f = true) → ClassChar t r b → a ≤ b →
      ClassSet false r p → ClassSet f (s ++ 0x2D :: (t ++ r)) fun x => (a ≤ x ∧ x ≤ b) ∨ p x

/-- The characters `[text]` stands for. -/
inductive IsClass : (text : List Byte) → (Byte → Prop) → Prop
  | pos {t p} : (∀ r, t ≠ 0x5E :: r) → ClassSet true t p → IsClass t p
  | neg {t p} : ClassSet true t p → IsClass (0x5E :: t) fun x => ¬ p x

/-- Matching expression `e`, in rule `r`, at position `pos` of the text: choice is ordered, repetition takes all it can
get, neither is ever reconsidered; lookahead consumes nothing and calls for nothing. `P` says when a condition holds for
the last marked text. -/
inductive Eval (g : Grammar) (P : Nat → List Byte → Bool) (inp : List Byte) : (r : Nat) → Exp → (pos : Nat) → Marks → Res → Prop
  | anyOk {r} {pos m c} : inp[pos]? = some c → Eval g P inp r .any pos m (.ok (pos+1) [] m)
  | anyFail {r} {pos m} : inp[pos]? = none → Eval g P inp r .any pos m (.fail m)
  | chrOk {r} {pos m c} : inp[pos]? = some c → Eval g P inp r (.chr c) pos m (.ok (pos+1) [] m)
  | chrFail {r} {pos m c} : inp[pos]? ≠ some c → Eval g P inp r (.chr c) pos m (.fail m)
  | strOk {r} {pos m s} : s <+: inp.drop pos → Eval g P inp r (.str s) pos m (.ok (pos + s.length) [] m)
  | strFail {r} {pos m s} : ¬ s <+: inp.drop pos → Eval g P inp r (.str s) pos m (.fail m)
  | clsOk {r} {pos m t p c} : IsClass t p → inp[pos]? = some c → p c → Eval g P inp r (.cls t) pos m (.ok (pos+1) [] m)
  | clsFail {r} {pos m t p} : IsClass t p → (∀ c, inp[pos]? = some c → ¬ p c) → Eval g P inp r (.cls t) pos m (.fail m)
  | act {r} {pos m a} : Eval g P inp r (.act a) pos m (.ok pos [.act r a m.b m.e] m)
  | predOk {r} {pos m p} : P p (slice inp m.b m.e) = true → Eval g P inp r (.pred p) pos m (.ok pos [] m)
  | predFail {r} {pos m p} : P p (slice inp m.b m.e) = false → Eval g P inp r (.pred p) pos m (.fail m)
  | open {r} {pos m} : Eval g P inp r .open pos m (.ok pos [] { m with b := pos })
  | close {r} {pos m} : Eval g P inp r .close pos m (.ok pos [] { m with e := pos })
  | errOk {r} {e k pos m p' evs m'} : Eval g P inp r e pos m (.ok p' evs m') → Eval g P inp r (.err e k) pos m (.ok p' evs m')
  | errFail {r} {e k pos m m'} : Eval g P inp r e pos m (.fail m') → Eval g P inp r (.err e k) pos m (.fail { m' with errs := m'.errs ++ [k] })
  | altOk {r} {e l pos m p' evs m'} : Eval g P inp r e pos m (.ok p' evs m') → Eval g P inp r (.alt (.cons e l)) pos m (.ok p' evs m')
  | altFail {r} {e pos m m'} : Eval g P inp r e pos m (.fail m') → Eval g P inp r (.alt (.cons e .nil)) pos m (.fail m')
  | altNext {r} {e e' l pos m m' res} : Eval g P inp r e pos m (.fail m') → Eval g P inp r (.alt (.cons e' l)) pos m' res →
      Eval g P inp r (.alt (.cons e (.cons e' l))) pos m res
  | seqNil {r} {pos m} : Eval g P inp r (.seq .nil) pos m (.ok pos [] m)
  | seqFail {r} {e l pos m m'} : Eval g P inp r e pos m (.fail m') → Eval g P inp r (.seq (.cons e l)) pos m (.fail m')
  | seqOk {r} {e l pos m p1 ev1 m1 p2 ev2 m2} : Eval g P inp r e pos m (.ok p1 ev1 m1) → Eval g P inp r (.seq l) p1 m1 (.ok p2 ev2 m2) →
      Eval g P inp r (.seq (.cons e l)) pos m (.ok p2 (ev1 ++ ev2) m2)
  | seqFail2 {r} {e l pos m p1 ev1 m1 m2} : Eval g P inp r e pos m (.ok p1 ev1 m1) → Eval g P inp r (.seq l) p1 m1 (.fail m2) →
      Eval g P inp r (.seq (.cons e l)) pos m (.fail m2)
  | peekOk {r} {e pos m p' evs m'} : Eval g P inp r e pos m (.ok p' evs m') → Eval g P inp r (.peek e) pos m (.ok pos [] m')
  | peekFail {r} {e pos m m'} : Eval g P inp r e pos m (.fail m') → Eval g P inp r (.peek e) pos m (.fail m')
  | notOk {r} {e pos m m'} : Eval g P inp r e pos m (.fail m') → Eval g P inp r (.not e) pos m (.ok pos [] m')
  | notFail {r} {e pos m p' evs m'} : Eval g P inp r e pos m (.ok p' evs m') → Eval g P inp r (.not e) pos m (.fail m')
  | optSome {r} {e pos m p' evs m'} : Eval g P inp r e pos m (.ok p' evs m') → Eval g P inp r (.opt e) pos m (.ok p' evs m')
  | optNone {r} {e pos m m'} : Eval g P inp r e pos m (.fail m') → Eval g P inp r (.opt e) pos m (.ok pos [] m')
  | starEnd {r} {e pos m m'} : Eval g P inp r e pos m (.fail m') → Eval g P inp r (.star e) pos m (.ok pos [] m')
  | starMore {r} {e pos m p1 ev1 m1 p2 ev2 m2} : Eval g P inp r e pos m (.ok p1 ev1 m1) → Eval g P inp r (.star e) p1 m1 (.ok p2 ev2 m2) →
      Eval g P inp r (.star e) pos m (.ok p2 (ev1 ++ ev2) m2)
  | plusFail {r} {e pos m m'} : Eval g P inp r e pos m (.fail m') → Eval g P inp r (.plus e) pos m (.fail m')
  | plusOk {r} {e pos m p1 ev1 m1 p2 ev2 m2} : Eval g P inp r e pos m (.ok p1 ev1 m1) → Eval g P inp r (.star e) p1 m1 (.ok p2 ev2 m2) →
      Eval g P inp r (.plus e) pos m (.ok p2 (ev1 ++ ev2) m2)
  | nameOk {r} {r' ru v pos m p' evs m'} : g[r']? = some ru → Eval g P inp r' ru.body pos m (.ok p' evs m') →
      Eval g P inp r (.name r' v) pos m (.ok p' (.enter r' :: evs ++ .leave r' :: (v.map (Ev.set r)).toList) m')
  | nameFail {r} {r' ru v pos m m'} : g[r']? = some ru → Eval g P inp r' ru.body pos m (.fail m') →
      Eval g P inp r (.name r' v) pos m (.fail m')

/-- Running what a parse calls for. Every call of a rule has variables of its own (with any contents at first), the value
of a rule is what `$$` is when it is left. The state: the variables of the rules that have been entered and not left, and
`$$`. `A a` is what action `a` does with the text, the variables of its rule and `$$`; a text that ends at the start of the input
is not handed over (`t` is arbitrary). -/
inductive Runs {α : Type} (A : Nat → List Byte → (Nat → α) → α → (Nat → α) × α) (inp : List Byte) :
    List Ev → List (Nat → α) × α → List (Nat → α) × α → Prop
  | nil {s} : Runs A inp [] s s
  | enter {r evs env envs y s'} : Runs A inp evs (env :: envs, y) s' → Runs A inp (.enter r :: evs) (envs, y) s'
  | leave {r evs env envs y s'} : Runs A inp evs (envs, y) s' → Runs A inp (.leave r :: evs) (env :: envs, y) s'
  | set {r v evs env envs y s'} : Runs A inp evs ((fun i => if i = v then y else env i) :: envs, y) s' →
      Runs A inp (.set r v :: evs) (env :: envs, y) s'
  | act {r a b e t evs env envs y s'} : (e ≠ 0 → t = slice inp b e) →
      Runs A inp evs ((A a t env y).1 :: envs, (A a t env y).2) s' → Runs A inp (.act r a b e :: evs) (env :: envs, y) s'

/-! ### When every parse ends -/

mutual
/-- May match the empty text; `nul r`: rule `r` may. -/
def Exp.null (nul : Nat → Bool) : Exp → Bool
  | .any => false
  | .chr _ => false
  | .str s => s.isEmpty
  | .cls _ => false
  | .name r _ => nul r
  | .err e _ => e.null nul
  | .alt l => l.someNull nul
  | .seq l => l.allNull nul
  | .plus e => e.null nul
  | _ => true
def Exps.someNull (nul : Nat → Bool) : Exps → Bool
  | .nil => false
  | .cons e l => e.null nul || l.someNull nul
def Exps.allNull (nul : Nat → Bool) : Exps → Bool
  | .nil => true
  | .cons e l => e.null nul && l.allNull nul
end

mutual
/-- Every rule that may be called before a character is consumed satisfies `ok`. -/
def Exp.heads (nul ok : Nat → Bool) : Exp → Bool
  | .name r _ => ok r
  | .err e _ => e.heads nul ok
  | .alt l => l.altHeads nul ok
  | .seq l => l.seqHeads nul ok
  | .peek e => e.heads nul ok
  | .not e => e.heads nul ok
  | .opt e => e.heads nul ok
  | .star e => e.heads nul ok
  | .plus e => e.heads nul ok
  | _ => true
def Exps.altHeads (nul ok : Nat → Bool) : Exps → Bool
  | .nil => true
  | .cons e l => e.heads nul ok && l.altHeads nul ok
def Exps.seqHeads (nul ok : Nat → Bool) : Exps → Bool
  | .nil => true
  | .cons e l => e.heads nul ok && (!e.null nul || l.seqHeads nul ok)
end

mutual
/-- Rule numbers are below `n`; what is repeated consumes something; a choice has an alternative. -/
def Exp.fine (nul : Nat → Bool) (n : Nat) : Exp → Bool
  | .name r _ => decide (r < n)
  | .err e _ => e.fine nul n
  | .alt .nil => false
  | .alt l => l.fine nul n
  | .seq l => l.fine nul n
  | .peek e => e.fine nul n
  | .not e => e.fine nul n
  | .opt e => e.fine nul n
  | .star e => !e.null nul && e.fine nul n
  | .plus e => !e.null nul && e.fine nul n
  | _ => true
def Exps.fine (nul : Nat → Bool) (n : Nat) : Exps → Bool
  | .nil => true
  | .cons e l => e.fine nul n && l.fine nul n
end

/-- No left recursion: rules have ranks, those called before a character is consumed have lower ones. -/
structure Ends (g : Grammar) (nul : Nat → Bool) (rank : Nat → Nat) : Prop where
  hnul : ∀ (r : Nat) ru, g[r]? = some ru → ru.body.null nul = true → nul r = true
  hfine : ∀ (r : Nat) ru, g[r]? = some ru → ru.body.fine nul g.length = true
  hrank : ∀ (r : Nat) ru, g[r]? = some ru → ru.body.heads nul (fun r' => decide (rank r' < rank r)) = true

/-! ### What is required of a grammar -/

mutual
/-- Whether there is an action in the expression (tree.c:139-157). -/
def Exp.hasAct : Exp → Bool
  | .act _ => true
  | .err e _ => e.hasAct
  | .alt l => l.hasAct
  | .seq l => l.hasAct
  | .peek e => e.hasAct
  | .not e => e.hasAct
  | .opt e => e.hasAct
  | .star e => e.hasAct
  | .plus e => e.hasAct
  | _ => false
def Exps.hasAct : Exps → Bool
  | .nil => false
  | .cons e l => e.hasAct || l.hasAct
end

mutual
/-- Every literal of one character is a 7-bit character. -/
def Exp.Ascii : Exp → Prop
  | .chr c => c.toNat < 128
  | .err e _ => e.Ascii
  | .alt l => l.Ascii
  | .seq l => l.Ascii
  | .peek e => e.Ascii
  | .not e => e.Ascii
  | .opt e => e.Ascii
  | .star e => e.Ascii
  | .plus e => e.Ascii
  | _ => True
def Exps.Ascii : Exps → Prop
  | .nil => True
  | .cons e l => e.Ascii ∧ l.Ascii
end

mutual
/-- Character classes are well-formed, there is an alternative in every choice. -/
def Exp.Good : Exp → Prop
  | .cls t => ∃ p, IsClass t p
  | .err e _ => e.Good
  | .alt l => l ≠ .nil ∧ l.Good
  | .seq l => l.Good
  | .peek e => e.Good
  | .not e => e.Good
  | .opt e => e.Good
  | .star e => e.Good
  | .plus e => e.Good
  | _ => True
def Exps.Good : Exps → Prop
  | .nil => True
  | .cons e l => e.Good ∧ l.Good
end

/-- An action that looks at the first `nv` variables only. -/
def Local {α : Type} (A : Nat → List Byte → (Nat → α) → α → (Nat → α) × α) (nv a : Nat) : Prop :=
  ∀ t env env' y, (∀ i, i < nv → env i = env' i) → (∀ i, i < nv → (A a t env y).1 i = (A a t env' y).1 i) ∧ (A a t env y).2 = (A a t env' y).2

mutual
/-- The variables of an expression are among the first `nv`, the rules assigned to them satisfy `ok`, the actions use these variables only. -/
def Exp.Uses {α : Type} (A : Nat → List Byte → (Nat → α) → α → (Nat → α) × α) (ok : Nat → Prop) (nv : Nat) : Exp → Prop
  | .name r (some v) => v < nv ∧ ok r
  | .act a => Local A nv a
  | .err e _ => e.Uses A ok nv
  | .alt l => l.Uses A ok nv
  | .seq l => l.Uses A ok nv
  | .peek e => e.Uses A ok nv
  | .not e => e.Uses A ok nv
  | .opt e => e.Uses A ok nv
  | .star e => e.Uses A ok nv
  | .plus e => e.Uses A ok nv
  | _ => True
def Exps.Uses {α : Type} (A : Nat → List Byte → (Nat → α) → α → (Nat → α) × α) (ok : Nat → Prop) (nv : Nat) : Exps → Prop
  | .nil => True
  | .cons e l => e.Uses A ok nv ∧ l.Uses A ok nv
end

/-- Rules that may be assigned to a variable of rule `ru`: when it has no actions, rules with variables only. -/
def Deep (gr : Grammar) (ru : Rule) (r : Nat) : Prop := ru.body.hasAct = true ∨ ∀ ru', gr[r]? = some ru' → ru'.nvars ≠ 0

mutual
/-- The actions of an expression. -/
def Exp.acts : Exp → List Nat
  | .act a => [a]
  | .err e _ => e.acts
  | .alt l => l.acts
  | .seq l => l.acts
  | .peek e => e.acts
  | .not e => e.acts
  | .opt e => e.acts
  | .star e => e.acts
  | .plus e => e.acts
  | _ => []
def Exps.acts : Exps → List Nat
  | .nil => []
  | .cons e l => e.acts ++ l.acts
end

end Potion.Greg
