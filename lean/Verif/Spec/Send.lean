import Verif.Model.Send
/-!
Specification for C77: expressions with messages, lists, licks, fields, elements, variables and operators, and what they mean, without registers. `tree` is the syntax tree
the parser gives for them.
-/
namespace Potion.Send
open Potion Potion.Peg Potion.CompileAll

abbrev Ident := List (BitVec 8)

/-- What is between the brackets of `x[…]`. -/
inductive Key
  | var (k : Ident)                         -- x[k]
  | num (i : Nat)                           -- x[3]
  | lit (v : Tree)                          -- x["k"]

mutual
/-- Something messages can be sent to. -/
inductive Chain
  | here                                    -- nothing: the receiver is self
  | lit (v : Tree)                          -- 3, "a", nil
  | me                                      -- self
  | list (es : Exs)                         -- (a, b), (k=a, j=b)
  | not (a : Ex)                            -- !a
  | bitnot (a : Ex)                         -- ~a
  | send (c : Chain) (m : Ident)            -- c m; without c: a variable, or a message to self
  | sendArgs (c : Chain) (m : Ident) (as : Exs)    -- c m(a, b)
  | apply (c : Chain) (as : Exs)            -- c (a, b)
  | ask (c : Chain) (m : Ident)             -- c ?m
  | askArgs (c : Chain) (m : Ident) (as : Exs)     -- c ?m(a, b)
  | path (q : Bool) (c : Chain) (x : Ident) -- c/x, and c?/x
  | index (x : Ident) (k : Key)             -- x[k]
  | licks (ls : Lks)                        -- [a "text", b [c] (k=1)]
  | inc (pre up : Bool) (x : Ident)         -- x++, x--, ++x, --x
/-- Expressions. -/
inductive Ex
  | chain (c : Chain)
  | bin (k : Kind) (a b : Ex)               -- a + b …
  | and (a b : Ex)
  | or (a b : Ex)
  | set (x : Ident) (e : Ex)                -- x = e
  | define (x : Ident) (e : Ex)             -- X = e
  | setPath (c : Chain) (x : Ident) (e : Ex)   -- c/x = e
  | defMethod (c : Chain) (m : Ident) (e : Ex) -- c m = e
  | setCall (x : Ident) (as : Exs) (e : Ex) -- x(a, b) = e
/-- Lists of expressions, and of `k = e` in a list; an argument without parentheses. -/
inductive Exs
  | nil
  | cons (e : Ex) (r : Exs)
  | pair (k : Ident) (e : Ex) (r : Exs)
  | lone (c : Chain)                        -- the argument 3 in c m 3
/-- Licks: a name, what is in it (`here`: nothing), and attributes. -/
inductive Lks
  | nil
  | item (x : Ident) (c : Chain) (r : Lks)                -- x, x "text", x [a, b]
  | attrs (x : Ident) (c : Chain) (as : Exs) (r : Lks)    -- x (k=1), x [a, b] (k=1)
end

/-! ### The trees -/

def leaf (k : Kind) (x : Tree) : Tree := .node k x .nil .nil
/-- A tuple of nodes, nil if there are none. -/
def tupOf : List Tree → Tree
  | [] => .nil
  | l => .tup l

def keyTree : Key → Tree
  | .var k => .str k
  | .num i => leaf .value (.imm (pnNum i))
  | .lit v => leaf .value v

/-- What is added to a variable by `++` and `--`. -/
def one (up : Bool) : BitVec 64 := pnNum (if up then 1 else -1)

/-- The only node there is, or nil. -/
def single : List Tree → Tree
  | [v] => v
  | _ => .nil

mutual
/-- The nodes of a chain. -/
def items : Chain → List Tree
  | .here => []
  | .lit v => [leaf .value v]
  | .me => [leaf .msg (.str (Compile.bytesOf "self"))]
  | .list es => [leaf .list (tupOf (trees es))]
  | .not a => [leaf .not (tree a)]
  | .bitnot a => [leaf .wavy (tree a)]
  | .send c m => items c ++ [leaf .msg (.str m)]
  | .sendArgs c m as => items c ++ [.node .msg (.str m) (argTree as) .nil]
  | .apply c as => items c ++ [.node .msg .nil (argTree as) .nil]
  | .ask c m => items c ++ [leaf .query (.str m)]
  | .askArgs c m as => items c ++ [.node .query (.str m) (argTree as) .nil]
  | .path q c x => items c ++ [leaf (if q then .pathq else .path) (.str x)]
  | .index x k => [leaf .value (.node .lick (leaf .msg (.str x)) (leaf .list (.tup [leaf .lick (keyTree k)])) .nil)]
  | .licks ls => [leaf .list (tupOf (lickTrees ls))]
  | .inc pre up x => [.node .inc (leaf .msg (.str x)) (.imm (if pre then one up ^^^ 1#64 else one up)) .nil]
/-- The tree of an expression. -/
def tree : Ex → Tree
  | .chain c => leaf .expr (.tup (items c))
  | .bin k a b => .node k (tree a) (tree b) .nil
  | .and a b => .node .and (tree a) (tree b) .nil
  | .or a b => .node .or (tree a) (tree b) .nil
  | .set x e => .node .assign (leaf .expr (.tup [leaf .msg (.str x)])) (tree e) .nil
  | .define x e => .node .assign (leaf .expr (.tup [leaf .msg (.str x)])) (tree e) .nil
  | .setPath c x e => .node .assign (leaf .expr (.tup (items c ++ [leaf .path (.str x)]))) (tree e) .nil
  | .defMethod c m e => .node .assign (leaf .expr (.tup (items c ++ [leaf .msg (.str m)]))) (tree e) .nil
  | .setCall x as e => .node .assign (leaf .expr (.tup [.node .msg (.str x) (argTree as) .nil])) (tree e) .nil
def trees : Exs → List Tree
  | .nil => []
  | .cons e r => tree e :: trees r
  | .pair k e r => .node .assign (leaf .expr (.tup [leaf .msg (.str k)])) (tree e) .nil :: trees r
  | .lone c => [single (items c)]
/-- The arguments of a message. -/
def argTree : Exs → Tree
  | .lone c => single (items c)
  | .nil => leaf .list .nil
  | .cons e r => leaf .list (.tup (tree e :: trees r))
  | .pair k e r => leaf .list (.tup (.node .assign (leaf .expr (.tup [leaf .msg (.str k)])) (tree e) .nil :: trees r))
def lickTrees : Lks → List Tree
  | .nil => []
  | .item x c r => .node .lick (.str x) (single (items c)) .nil :: lickTrees r
  | .attrs x c as r => .node .lick (.str x) (single (items c)) (leaf .list (tupOf (trees as))) :: lickTrees r
end

/-! ### Which expressions these are -/

/-- The operators. -/
def isOp (k : Kind) : Bool := (binOp k).isSome
/-- No keyword. -/
def plain (m : Ident) : Bool :=
  !(["if", "elsif", "else", "class", "extern", "while", "loop", "return", "break", "continue", "self"].map Compile.bytesOf).contains m
/-- A literal (a string of 33 bytes is taken for something else, compile.c:405). -/
def literal : Tree → Bool
  | .imm _ | .dbl _ => true
  | .str s => s.length ≠ 33
  | _ => false
def Chain.isHere : Chain → Bool
  | .here => true
  | _ => false
/-- The chain begins with a list. -/
def Chain.onList : Chain → Bool
  | .list _ | .licks _ => true
  | .send c _ | .sendArgs c _ _ | .apply c _ | .ask c _ | .askArgs c _ _ | .path _ c _ => c.onList
  | _ => false
/-- What an operand may be: parentheses with one expression in them are just parentheses; any other chain that begins with a list is compiled wrongly
(`C77_refuted_operand`). -/
def operand : Ex → Bool
  | .chain (.list (.cons _ .nil)) => true
  | .chain c => !c.onList
  | .set .. | .define .. | .setPath .. | .defMethod .. | .setCall .. => false
  | _ => true
/-- An argument `x = e` would be a named one, an element `x = e` an entry. -/
def isSet : Ex → Bool
  | .set .. | .define .. | .setPath .. | .defMethod .. | .setCall .. => true
  | _ => false

/-- Numbers from 1024 on are taken for a register (`C77_refuted_index`). -/
def okKey : Key → Bool
  | .var _ => true
  | .num i => i < 1024
  | .lit (.str _) | .lit (.dbl _) => true
  | .lit _ => false
/-- An argument without parentheses. -/
def alone : Chain → Bool
  | .lit _ | .index .. => true
  | _ => false
/-- What may be in a lick. -/
def inner : Chain → Bool
  | .here | .lit _ | .index .. | .licks _ => true
  | _ => false

mutual
def okC : Chain → Bool
  | .here | .me => true
  | .lit v => literal v
  | .list es => okL es
  | .not a | .bitnot a => okE a && operand a
  | .send c m => okC c && plain m
  | .sendArgs c m as => okC c && plain m && okA as
  | .apply c as => okC c && !c.isHere && okA as
  | .ask c _ => okC c
  | .askArgs c _ as => okC c && okA as
  | .path _ c _ => okC c
  | .index _ k => okKey k
  | .licks ls => okK ls
  | .inc .. => true
def okE : Ex → Bool
  | .chain c => okC c && !c.isHere
  | .bin k a b => isOp k && okE a && operand a && okE b && operand b
  | .and a b | .or a b => okE a && operand a && okE b && operand b
  | .set x e => !isUpper x && okE e
  | .define x e => isUpper x && okE e
  | .setPath c _ e => okC c && okE e
  | .defMethod c m e => okC c && !c.isHere && !isUpper m && okE e
  | .setCall x as e => !isUpper x && okA as && okE e
/-- Elements of a list. -/
def okL : Exs → Bool
  | .nil => true
  | .cons e r => okE e && !isSet e && okL r
  | .pair _ e r => okE e && okL r
  | .lone _ => false
/-- Arguments. -/
def okA : Exs → Bool
  | .nil => true
  | .cons e r => okE e && !isSet e && okA r
  | .pair .. => false
  | .lone c => okC c && alone c
def okK : Lks → Bool
  | .nil => true
  | .item _ c r => okC c && inner c && okK r
  | .attrs _ c as r => okC c && inner c && okL as && okK r
end

/-! ### Variables: a name is a variable from its first assignment on -/

def addName (K : List Ident) (x : Ident) : List Ident := if x ∈ K then K else K ++ [x]

def namesK : Key → List Ident → List Ident
  | .var k, K => addName K k
  | _, K => K

mutual
def namesC : Chain → List Ident → List Ident
  | .here, K | .lit _, K | .me, K => K
  | .list es, K => namesL es K
  | .not a, K | .bitnot a, K => namesE a K
  | .send c _, K | .ask c _, K | .path _ c _, K => namesC c K
  | .sendArgs c _ as, K | .apply c as, K | .askArgs c _ as, K => namesL as (namesC c K)
  | .index x k, K => namesK k (addName K x)
  | .licks ls, K => namesLk ls K
  | .inc _ _ x, K => addName K x
def namesE : Ex → List Ident → List Ident
  | .chain c, K => namesC c K
  | .bin _ a b, K | .and a b, K | .or a b, K => namesE b (namesE a K)
  | .set x e, K => namesE e (addName K x)
  | .define _ e, K => namesE e K
  | .setPath c _ e, K | .defMethod c _ e, K => namesE e (namesC c K)
  | .setCall x as e, K => namesE e (namesL as (addName K x))
def namesL : Exs → List Ident → List Ident
  | .nil, K => K
  | .cons e r, K | .pair _ e r, K => namesL r (namesE e K)
  | .lone c, K => namesC c K
def namesLk : Lks → List Ident → List Ident
  | .nil, K => K
  | .item _ c r, K => namesLk r (namesC c K)
  | .attrs _ c as r, K => namesLk r (namesL as (namesC c K))
end

/-! ### Meaning -/

variable {V S E : Type}

/-- The values of the variables, and the memory. -/
structure Mem (V S : Type) where
  var : Ident → V
  mem : S

/-- A computation. -/
def M (V S E α : Type) := Mem V S → Except E (α × Mem V S)

instance : Monad (M V S E) where
  pure a := fun s => .ok (a, s)
  bind x f := fun s => match x s with
    | .error e => .error e
    | .ok (a, s) => f a s

/-- What an operation on the memory does. -/
def prim (x : S → Except E (V × S)) : M V S E V := fun s => match x s.mem with
  | .error e => .error e
  | .ok (v, m) => .ok (v, { s with mem := m })
def prim_ (x : S → Except E S) : M V S E Unit := fun s => match x s.mem with
  | .error e => .error e
  | .ok m => .ok ((), { s with mem := m })
def ask (x : S → α) : M V S E α := fun s => .ok (x s.mem, s)
def readVar (x : Ident) : M V S E V := fun s => .ok (s.var x, s)
def writeVar (x : Ident) (v : V) : M V S E Unit := fun s => .ok ((), { s with var := fun y => if y = x then v else s.var y })

/-- `f` called with `self` and arguments: a closure is run; a class makes an object, and runs its constructor with that as self; anything else is called
through the `call` of its type, with the value itself as self. -/
def invoke (W : World V S E) (f self : V) (args : List V) : M V S E V := do
  match ← ask (W.kind f) with
  | .closure => prim (W.enter f self args)
  | .cls =>
    let o ← prim (W.new f)
    let g ← ask (W.ctor f)
    prim (W.enter g o args)
  | .other =>
    let g ← ask (W.callOf f)
    match ← ask (W.kind g) with
    | .closure => prim (W.apply g f args)
    | _ => pure g

/-- What is in a lick: nil if there is nothing. -/
def orNil (W : World V S E) (c : Chain) (x : M V S E V) : M V S E V := if c.isHere then pure (W.const .nil) else x

/-- `x[k]`: a number or the value of a variable is an index of a tuple, anything else a key of a table. -/
def evalKey (W : World V S E) (o : V) : Key → M V S E V
  | .var k => do
    let i ← readVar k
    prim (W.tupleAt o i)
  | .num i => prim (W.tupleAt o (W.const (.imm (pnNum i))))
  | .lit v => prim (W.tableAt o (W.const v))

mutual
/-- The value of a chain, among the variables `K`. -/
def evalC (W : World V S E) (me : V) : Chain → List Ident → M V S E V
  | .here, _ | .me, _ => pure me
  | .lit v, _ => pure (W.const v)
  | .list es, K => do
    let t ← prim W.tuple
    evalL W me es K t
  | .not a, K => do
    let v ← evalE W me true a K
    pure (W.bool (!W.truth v))
  | .bitnot a, K => do
    let v ← evalE W me true a K
    prim (W.bitn v)
  | .send c m, K =>
    if c.isHere ∧ m ∈ K then readVar m else do
    let r ← evalC W me c K
    let f ← prim (W.bind r (W.const (.str m)))
    invoke W f r [W.const .nil]
  | .sendArgs c m as, K =>
    if c.isHere ∧ m ∈ K then do
      let f ← readVar m
      let vs ← evalA W me as K
      invoke W f me vs
    else do
    let r ← evalC W me c K
    let f ← prim (W.message r (W.const (.str m)))
    let vs ← evalA W me as (namesC c K)
    invoke W f r vs
  | .apply c as, K => do
    let f ← evalC W me c K
    let vs ← evalA W me as (namesC c K)
    invoke W f me vs
  | .ask c m, K => do
    let r ← evalC W me c K
    let f ← prim (W.bind r (W.const (.str m)))
    pure (W.bool (W.truth f))
  | .askArgs c m as, K => do
    let r ← evalC W me c K
    let f ← prim (W.message r (W.const (.str m)))
    if W.truth f then do
      let vs ← evalA W me as (namesC c K)
      invoke W f r vs
    else pure f
  | .path q c x, K => do
    let r ← evalC W me c K
    let v ← prim (W.get r (W.const (.str x)))
    pure (if q then W.bool (W.truth v) else v)
  | .index x k, _ => do
    let o ← readVar x
    evalKey W o k
  | .licks ls, K => do
    let t ← prim W.tuple
    evalK W me ls K t
  | .inc pre up x, _ => do
    let v ← readVar x
    let w ← prim (W.op .add v (W.const (.imm (one up))))
    writeVar x w
    pure (if pre then w else v)
/-- The value of an expression; with `true`, as an operand: parentheses around one expression are dropped. -/
def evalE (W : World V S E) (me : V) : Bool → Ex → List Ident → M V S E V
  | true, .chain (.list (.cons e .nil)), K => evalE W me false e K
  | _, .chain c, K => evalC W me c K
  | _, .bin k a b, K => do
    let x ← evalE W me true a K
    let y ← evalE W me true b (namesE a K)
    prim (W.op ((binOp k).getD .none) x y)
  | _, .and a b, K => do
    let x ← evalE W me true a K
    if W.truth x then evalE W me true b (namesE a K) else pure x
  | _, .or a b, K => do
    let x ← evalE W me true a K
    if W.truth x then pure x else evalE W me true b (namesE a K)
  | _, .set x e, K => do
    let v ← evalE W me false e (addName K x)
    writeVar x v
    pure v
  | _, .define x e, K => do
    let v ← evalE W me false e K
    prim_ (W.global (W.const (.str x)) v)
    pure v
  | _, .setPath c x e, K => do
    let o ← evalC W me c K
    let v ← evalE W me false e (namesC c K)
    prim_ (W.set o (W.const (.str x)) v)
    pure o
  | _, .defMethod c m e, K => do
    let o ← evalC W me c K
    let v ← evalE W me false e (namesC c K)
    prim (W.defMethod o (W.const (.str m)) v)
  | _, .setCall x as e, K => do
    let o ← readVar x
    let f ← ask (W.callset o)
    let vs ← evalA W me as (addName K x)
    let v ← evalE W me false e (namesL as (addName K x))
    invoke W f o (vs ++ [v])
/-- Add the elements to the list `t`. -/
def evalL (W : World V S E) (me : V) : Exs → List Ident → V → M V S E V
  | .nil, _, t => pure t
  | .cons e r, K, t => do
    let v ← evalE W me false e K
    let t ← prim (W.push t v)
    evalL W me r (namesE e K) t
  | .pair k e r, K, t => do
    let v ← evalE W me false e K
    prim_ (W.put t (W.const (.str k)) v)
    evalL W me r (namesE e K) t
  | .lone _, _, t => pure t
/-- The arguments, from left to right. -/
def evalA (W : World V S E) (me : V) : Exs → List Ident → M V S E (List V)
  | .nil, _ => pure []
  | .cons e r, K => do
    let v ← evalE W me false e K
    let vs ← evalA W me r (namesE e K)
    pure (v :: vs)
  | .pair .., _ => pure []
  | .lone c, K => do
    let v ← evalC W me c K
    pure [v]
/-- Add the licks to the list `t`. -/
def evalK (W : World V S E) (me : V) : Lks → List Ident → V → M V S E V
  | .nil, _, t => pure t
  | .item x c r, K, t => do
    let i ← orNil W c (evalC W me c K)
    let l ← prim (W.lick (W.const (.str x)) i (W.const .nil))
    let t ← prim (W.push t l)
    evalK W me r (namesC c K) t
  | .attrs x c as r, K, t => do
    let i ← orNil W c (evalC W me c K)
    let u ← prim W.tuple
    let a ← evalL W me as (namesC c K) u
    let l ← prim (W.lick (W.const (.str x)) i a)
    let t ← prim (W.push t l)
    evalK W me r (namesL as (namesC c K)) t
end

/-- A program: the value of the last statement. -/
def evalP (W : World V S E) (me : V) : List Ex → List Ident → V → M V S E V
  | [], _, v => pure v
  | e :: r, K, _ => do
    let v ← evalE W me false e K
    evalP W me r (namesE e K) v

/-- The tree of a program. -/
def program (es : List Ex) : Tree := leaf .code (.tup (es.map tree))

end Potion.Send
