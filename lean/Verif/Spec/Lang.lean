import Verif.Spec.Word
/-!
Specification of the expression and statement language: syntax and evaluation, without registers, jumps or machine words.
-/
namespace Potion.Spec

/-- Variable names. -/
abbrev Ident := List (BitVec 8)

/-- Order comparisons. -/
inductive Rel | lt | le | gt | ge
  deriving DecidableEq, Repr

def Rel.holds : Rel → Int → Int → Bool
  | .lt, a, b => decide (a < b)
  | .le, a, b => decide (a ≤ b)
  | .gt, a, b => decide (a > b)
  | .ge, a, b => decide (a ≥ b)

mutual
/-- Programs: expressions are statements. -/
inductive Prog
  | int (i : Int)
  | bool (b : Bool)
  | nil
  | var (x : Ident)
  | assign (x : Ident) (e : Prog)          -- x = e
  | incr (pre : Bool) (up : Bool) (x : Ident)   -- ++x --x x++ x--
  | arith (op : Op) (a b : Prog)           -- a + b ...
  | rel (r : Rel) (a b : Prog)             -- a < b ...
  | eq (neg : Bool) (a b : Prog)           -- a == b, a != b
  | not (a : Prog)
  | bitnot (a : Prog)                      -- ~a
  | and (a b : Prog)
  | or (a b : Prog)
  | group (a : Prog)                       -- (a)
  | nop                                    -- empty block
  | seq (a b : Prog)                       -- a, b
  | ifs (c a : Prog) (r : Else)            -- if (c): a. r
  | while (c a : Prog)
  | loop (a : Prog)
  | brk
  | cont
  | ret (a : Prog)                         -- return (a)
  | retNil                                 -- return
  | fn (ps : List Ident) (body : Prog)     -- (x, y): body.
  | call (x : Ident) (args : Args)         -- x (a, b)
/-- What follows an `if`. -/
inductive Else
  | none
  | elsif (c a : Prog) (r : Else)
  | els (a : Prog)
/-- Arguments of a call. -/
inductive Args
  | nil
  | cons (a : Prog) (r : Args)
end

/-- Values. A function has parameters, a body, and the parameters of the functions around it with the places where they
live (the variables of the main program need no place: there is only one of each). -/
inductive V
  | int (i : Int)
  | bool (b : Bool)
  | nil
  | fn (ps : List Ident) (body : Prog) (scope : List (Ident × Nat))

/-- Only `false` and `nil` count as false. -/
def V.truthy : V → Bool
  | .int _ => true
  | .bool b => b
  | .nil => false
  | .fn .. => true

/-- Equality of values; functions are not compared. -/
def V.same : V → V → Option Bool
  | .fn .., _ => none
  | _, .fn .. => none
  | .int i, .int j => some (decide (i = j))
  | .bool i, .bool j => some (decide (i = j))
  | .nil, .nil => some true
  | _, _ => some false

/-- The exact result of an operator, when it is an integer in range. -/
def arithVal (op : Op) (a b : Int) : Option Int :=
  let r := match op with
    | .plus => some (a + b)
    | .minus => some (a - b)
    | .times => some (a * b)
    | .over => if b = 0 then none else some (Int.tdiv a b)
    | .mod => if b = 0 then none else some (Int.tmod a b)
    | .shl => if 0 ≤ b ∧ b < 64 then some (a * 2 ^ b.toNat) else none
    | .shr => if 0 ≤ b ∧ b < 64 then some (a / 2 ^ b.toNat) else none
  match r with
  | some r => if InRange r then some r else none
  | none => none

/-- A place for a value: a variable of the main program, or the parameter of one of the calls so far. -/
inductive Place | main (x : Ident) | par (i : Nat)
  deriving DecidableEq

/-- The innermost parameter called `x`, otherwise the variable of the main program. -/
def place : List (Ident × Nat) → Ident → Place
  | [], x => .main x
  | (y, i) :: r, x => if x = y then .par i else place r x

/-- All variables and their values: those of the main program and whether they have been assigned, and the parameters of
all calls so far. -/
structure Store where
  main : Ident → V
  assigned : Ident → Bool
  pars : List V

def Store.get (st : Store) : Place → V
  | .main x => st.main x
  | .par i => (st.pars[i]?).getD .nil
def Store.set (st : Store) : Place → V → Store
  | .main x, v => { st with main := fun y => if y = x then v else st.main y, assigned := fun y => y == x || st.assigned y }
  | .par i, v => { st with pars := st.pars.set i v }

/-- Before the main program runs all its variables are `nil`, and unassigned. -/
def Store.empty : Store := { main := fun _ => .nil, assigned := fun _ => false, pars := [] }

def Store.isSet (st : Store) : Place → Bool
  | .main x => st.assigned x
  | .par _ => true

/-- What is claimed of an implementation: for which integers an order comparison, for which operands an operator, and whether
variables not yet assigned are `nil`. -/
structure Claims where
  rel : Int → Int → Bool
  arith : Op → Int → Int → Bool
  unset : Bool

/-- Everything the language promises. -/
def Claims.all : Claims := { rel := fun _ _ => true, arith := fun _ _ _ => true, unset := true }

/-- Reading a variable. -/
def Store.read (st : Store) (ok : Claims) (P : Place) : Option V := if ok.unset || st.isSet P then some (st.get P) else none

/-- How a program ends: with a value (`none`: no value is promised, as for a loop or an `if` no branch of which was
taken), leaving the loop, starting its next round, or returning. -/
inductive Out
  | val (v : Option V)
  | brk
  | cont
  | ret (v : V)

/-- Use the value of a part; other ways to end are passed on, a missing value makes no promise at all. -/
def onVal (r : Option (Out × Store)) (k : V → Store → Option (Out × Store)) : Option (Out × Store) :=
  match r with
  | some (.val (some v), env) => k v env
  | some (.val Option.none, _) => Option.none
  | some (.brk, env) => some (.brk, env)
  | some (.cont, env) => some (.cont, env)
  | some (.ret v, env) => some (.ret v, env)
  | Option.none => Option.none

/-- The places of the parameters `ps` of a call when `n` parameters have been stored before. -/
def scopeOf : List Ident → Nat → List (Ident × Nat)
  | [], _ => []
  | p :: ps, n => (p, n) :: scopeOf ps (n+1)

mutual
/-- Evaluation, left to right, with at most `n` nested steps and `d` nested calls, in a function with the parameters
`sc` around. `ok` says what is claimed. `none`: out of steps or calls, or no claim (type error, overflow, division by
zero, wrong number of arguments). -/
def eval (ok : Claims) : (n d : Nat) → (sc : List (Ident × Nat)) → Prog → Store → Option (Out × Store)
  | 0, _, _, _, _ => Option.none
  | n+1, d, sc, p, env => match p with
    | .int i => if InRange i then some (.val (some (.int i)), env) else Option.none
    | .bool b => some (.val (some (.bool b)), env)
    | .nil => some (.val (some .nil), env)
    | .var x => match env.read ok (place sc x) with
      | some v => some (.val (some v), env)
      | Option.none => Option.none
    | .assign x e => onVal (eval ok n d sc e env) fun v env => some (.val (some v), env.set (place sc x) v)
    | .incr pre up x => match env.read ok (place sc x) with
      | some (.int i) => match arithVal .plus i (if up then 1 else -1) with
        | some j => some (.val (some (.int (if pre then j else i))), env.set (place sc x) (.int j))
        | Option.none => Option.none
      | _ => Option.none
    | .arith op a b => onVal (eval ok n d sc a env) fun x env => onVal (eval ok n d sc b env) fun y env =>
      match x, y with
      | .int i, .int j => match arithVal op i j with
        | some r => if ok.arith op i j then some (.val (some (.int r)), env) else Option.none
        | Option.none => Option.none
      | _, _ => Option.none
    | .rel r a b => onVal (eval ok n d sc a env) fun x env => onVal (eval ok n d sc b env) fun y env =>
      match x, y with
      | .int i, .int j => if ok.rel i j then some (.val (some (.bool (r.holds i j))), env) else Option.none
      | _, _ => Option.none
    | .eq neg a b => onVal (eval ok n d sc a env) fun x env => onVal (eval ok n d sc b env) fun y env =>
      match x.same y with
      | some e => some (.val (some (.bool (e != neg))), env)
      | Option.none => Option.none
    | .not a => onVal (eval ok n d sc a env) fun x env => some (.val (some (.bool (!x.truthy))), env)
    | .bitnot a => onVal (eval ok n d sc a env) fun x env => match x with
      | .int i => some (.val (some (.int (-i - 1))), env)
      | _ => Option.none
    | .and a b => onVal (eval ok n d sc a env) fun x env => if x.truthy then eval ok n d sc b env else some (.val (some x), env)
    | .or a b => onVal (eval ok n d sc a env) fun x env => if x.truthy then some (.val (some x), env) else eval ok n d sc b env
    | .group a => eval ok n d sc a env
    | .nop => some (.val Option.none, env)
    | .seq a b => match eval ok n d sc a env with
      | some (.val _, env) => eval ok n d sc b env
      | r => r
    | .ifs c a r => onVal (eval ok n d sc c env) fun x env =>
      if x.truthy then eval ok n d sc a env
      else match r with
        | .none => some (.val Option.none, env)
        | .els b => eval ok n d sc b env
        | .elsif c' a' r' => eval ok n d sc (.ifs c' a' r') env
    | .while c a => onVal (eval ok n d sc c env) fun x env =>
      if x.truthy then
        match eval ok n d sc a env with
        | some (.val _, env) => eval ok n d sc (.while c a) env
        | some (.cont, env) => eval ok n d sc (.while c a) env
        | some (.brk, env) => some (.val Option.none, env)
        | r => r
      else some (.val Option.none, env)
    | .loop a => match eval ok n d sc a env with
      | some (.val _, env) => eval ok n d sc (.loop a) env
      | some (.cont, env) => eval ok n d sc (.loop a) env
      | some (.brk, env) => some (.val Option.none, env)
      | r => r
    | .brk => some (.brk, env)
    | .cont => some (.cont, env)
    | .ret a => onVal (eval ok n d sc a env) fun v env => some (.ret v, env)
    | .retNil => some (.ret .nil, env)
    | .fn ps b => some (.val (some (.fn ps b sc)), env)
    | .call x as => match env.read ok (place sc x), evalArgs ok n d sc as env with
      | some (.fn ps b sc'), some (vs, env) =>
        if vs.length = ps.length then
          match d with
          | 0 => Option.none
          | d+1 =>
            match eval ok n d (scopeOf ps env.pars.length ++ sc') b { env with pars := env.pars ++ vs } with
            | some (.val v, env) => some (.val v, env)
            | some (.ret v, env) => some (.val (some v), env)
            | _ => Option.none
        else Option.none
      | _, _ => Option.none
/-- The values of arguments, left to right. -/
def evalArgs (ok : Claims) : (n d : Nat) → (sc : List (Ident × Nat)) → Args → Store → Option (List V × Store)
  | 0, _, _, _, _ => Option.none
  | n+1, d, sc, as, env => match as with
    | .nil => some ([], env)
    | .cons a r => match eval ok n d sc a env with
      | some (.val (some v), env) => match evalArgs ok n d sc r env with
        | some (vs, env) => some (v :: vs, env)
        | Option.none => Option.none
      | _ => Option.none
end

end Potion.Spec
