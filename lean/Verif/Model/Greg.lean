import Verif.Spec.Greg
/-!
Model of the code greg generates for a grammar (/repo/tools/compile.c), with potion's `YY_INPUT` (/repo/core/syntax.y
29-40). A rule is a C function: a list of statements with labels and jumps. Grammars are given as trees (the nodes of
/repo/tools/tree.c); that the text of a grammar is read into this tree, and the text of the C statements, are not modelled.
Simplifications: sizes and positions do not overflow `int`; memory that was not written yet has arbitrary contents; a `chr` is a literal of one byte or of `\` and one
character (compile.c:238-249), a `str` any other, without NUL; conditions `&{ }` look at the marked text only; error statements are logged.
-/
namespace Potion.Greg

/-! ### Character classes -/

/-- compile.c:53-54 -/
def oigit (c : Byte) : Bool := decide (0x30#8 ≤ c) && decide (c ≤ 0x37#8)
def higit (c : Byte) : Bool := (decide (0x30#8 ≤ c) && decide (c ≤ 0x39#8)) || (decide (0x41#8 ≤ c) && decide (c ≤ 0x46#8)) ||
  (decide (0x61#8 ≤ c) && decide (c ≤ 0x66#8))
/-- compile.c:56-62 -/
def hexval (c : Byte) : Nat :=
  if 0x30#8 ≤ c ∧ c ≤ 0x39#8 then c.toNat - 48
  else if 0x41#8 ≤ c ∧ c ≤ 0x46#8 then 10 + c.toNat - 65
  else if 0x61#8 ≤ c ∧ c ≤ 0x66#8 then 10 + c.toNat - 97
  else 0

/-- `if (digit(*cclass)) c = (c << k) + value(*cclass++)`. The text ends with NUL, which is no digit. -/
def moreOct : Nat × List Byte → Nat × List Byte
  | (c, d :: s) => if oigit d then (c * 8 + (d.toNat - 48), s) else (c, d :: s)
  | (c, []) => (c, [])
def moreHex : Nat × List Byte → Nat × List Byte
  | (c, d :: s) => if higit d then (c * 16 + hexval d, s) else (c, d :: s)
  | (c, []) => (c, [])

/-- compile.c:64-98 `readChar`: the character and the rest of the text; 0 at the end. -/
def readChar : List Byte → Nat × List Byte
  | [] => (0, [])
  | c :: s =>
    if c = 0x5C#8 then
      match s with
      | [] => (0x5C, [])
      | d :: s =>
        if d = 0x61#8 then (7, s) else if d = 0x62#8 then (8, s) else if d = 0x65#8 then (27, s)
        else if d = 0x66#8 then (12, s) else if d = 0x6E#8 then (10, s) else if d = 0x72#8 then (13, s)
        else if d = 0x74#8 then (9, s) else if d = 0x76#8 then (11, s)
        else if d = 0x78#8 then moreHex (moreHex (0, s))
        else if oigit d then moreOct (moreOct (d.toNat - 48, s))
        else (d.toNat, s)
    else (c.toNat, s)

/-- compile.c:48-49: the 256 bits; `none` outside them. -/
def setBit (v : Bool) (bits : Nat → Bool) (c : Nat) : Option (Nat → Bool) :=
  if c < 256 then some (fun k => if k = c then v else bits k) else none

/-- compile.c:165-166: `for (; prev <= c; ++prev) set(bits, prev)`, `n` rounds. -/
def setRange (v : Bool) : (n : Nat) → (prev : Nat) → (Nat → Bool) → Option (Nat → Bool)
  | 0, _, bits => some bits
  | n+1, prev, bits => match setBit v bits prev with
    | some bits => setRange v n (prev+1) bits
    | none => none

/-- compile.c:161-173: the loop; at most `fuel` characters. `prev` is -1 after a range. -/
def classLoop (v : Bool) : (fuel : Nat) → List Byte → (prev : Option Nat) → (Nat → Bool) → Option (Nat → Bool)
  | 0, _, _, _ => none
  | f+1, s, prev, bits =>
    let (c, s') := readChar s
    if c = 0 then some bits
    else match prev with
      | some p =>
        if c = 0x2D ∧ s' ≠ [] then
          let (c2, s'') := readChar s'
          match setRange v (c2 + 1 - p) p bits with
          | some bits => classLoop v f s'' none bits
          | none => none
        else match setBit v bits c with
          | some bits => classLoop v f s' (some c) bits
          | none => none
      | none => match setBit v bits c with
        | some bits => classLoop v f s' (some c) bits
        | none => none

/-- compile.c:141-180 `makeCharClass`: the bits, as a function. -/
def makeCharClass (text : List Byte) : Option (Nat → Bool) :=
  match text with
  | c :: s => if c = 0x5E#8 then classLoop false (s.length + 1) s none (fun _ => true)
    else classLoop true (text.length + 1) text none (fun _ => false)
  | [] => some (fun _ => false)

/-! ### Generated code -/

/-- A thunk (compile.c:605): the action and the fields `begin`, `end`. -/
inductive Thunk
  | push (n : Nat)
  | pop (n : Nat)
  | set (off : Int)
  | act (a nv b e : Nat)
  deriving DecidableEq

/-- Statements of a generated function: `if (!yymatch..) goto lko`, `yyDo(..)`, `save`, `restore`, labels, jumps. -/
inductive Ins
  | dot (ko : Nat)
  | chr (c : Byte) (ko : Nat)
  | str (s : List Byte) (ko : Nat)
  | cls (text : List Byte) (ko : Nat)
  | call (r : Nat) (ko : Nat)
  | yydo (t : Thunk)
  | yyact (a nv : Nat)
  | pred (p : Nat) (ko : Nat)
  | open
  | close
  | err (k : Nat)
  | save (n : Nat)
  | restore (n : Nat)
  | label (n : Nat)
  | goto (n : Nat)
  | ret (b : Bool)

def Exps.isNil : Exps → Bool
  | .nil => true
  | _ => false

/-- compile.c:397-406 `defineVariables`: offsets -1, -2, ... They are computed when the actions of the rule are printed
(compile.c:1007-1012); without actions the offset is still 0. -/
def offset (ru : Rule) (v : Nat) : Int := if ru.body.hasAct then -(v + 1 : Nat) else 0

mutual
/-- compile.c:194-382 `Node_compile_c_ko` for a node of rule `ru`; `n` is the last label number used (compile.c:42-46).
`<` and `>` are the conditions `YY_BEGIN` and `YY_END` (greg.y, compile.c:511-516), which always hold. -/
def comp (ru : Rule) : Exp → (ko n : Nat) → List Ins × Nat
  | .any, ko, n => ([.dot ko], n)
  | .chr c, ko, n => ([.chr c ko], n)
  | .str s, ko, n => ([.str s ko], n)
  | .cls t, ko, n => ([.cls t ko], n)
  | .name r v, ko, n => (.call r ko :: (match v with | some v => [.yydo (.set (offset ru v))] | none => []), n)
  | .act a, _, n => ([.yyact a ru.nvars], n)
  | .pred p, ko, n => ([.pred p ko], n)
  | .open, _, n => ([.open], n)
  | .close, _, n => ([.close], n)
  | .err e k, ko, n =>
    let eok := n + 1
    let eko := n + 2
    let (c, n) := comp ru e eko (n + 2)
    (c ++ [.goto eok, .label eko, .err k, .goto ko, .label eok], n)
  | .alt l, ko, n =>
    let ok := n + 1
    let (c, n) := compAlts ru l ko ok (n + 1)
    (.save ok :: c ++ [.label ok], n)
  | .seq l, ko, n => compSeq ru l ko n
  | .peek e, ko, n =>
    let ok := n + 1
    let (c, n) := comp ru e ko (n + 1)
    (.save ok :: c ++ [.restore ok], n)
  | .not e, ko, n =>
    let ok := n + 1
    let (c, n) := comp ru e ok (n + 1)
    (.save ok :: c ++ [.goto ko, .label ok, .restore ok], n)
  | .opt e, _, n =>
    let again := n + 1
    let out := n + 2
    let (c, n) := comp ru e out (n + 2)
    (.save out :: c ++ [.goto again, .label out, .restore out, .label again], n)
  | .star e, _, n =>
    let again := n + 1
    let out := n + 2
    let (c, n) := comp ru e out (n + 2)
    (.label again :: .save out :: c ++ [.goto again, .label out, .restore out], n)
  | .plus e, ko, n =>
    let again := n + 1
    let out := n + 2
    let (c, n) := comp ru e ko (n + 2)
    let (d, n) := comp ru e out n
    (c ++ .label again :: .save out :: d ++ [.goto again, .label out, .restore out], n)
/-- compile.c:297-308. -/
def compAlts (ru : Rule) : Exps → (ko ok n : Nat) → List Ins × Nat
  | .nil, _, _, n => ([], n)
  | .cons e l, ko, ok, n =>
    if l.isNil then comp ru e ko n
    else
      let next := n + 1
      let (c, n) := comp ru e next (n + 1)
      let (d, n) := compAlts ru l ko ok n
      (c ++ .goto ok :: .label next :: .restore ok :: d, n)
/-- compile.c:315-318. -/
def compSeq (ru : Rule) : Exps → (ko n : Nat) → List Ins × Nat
  | .nil, _, n => ([], n)
  | .cons e l, ko, n =>
    let (c, n) := comp ru e ko n
    let (d, n) := compSeq ru l ko n
    (c ++ d, n)
end

def Exp.safe : Exp → Bool
  | .opt _ => true
  | .star _ => true
  | _ => false

/-- compile.c:418-463 `Rule_compile_c2`: the function of a rule. -/
def compRule (ru : Rule) (n : Nat) : List Ins × Nat :=
  let ko := n + 1
  let (c, n) := comp ru ru.body ko (n + 1)
  ((if ru.body.safe then [] else [.save 0]) ++ (if ru.nvars = 0 then [] else [.yydo (.push ru.nvars)]) ++ c ++
    (if ru.nvars = 0 then [] else [.yydo (.pop ru.nvars)]) ++ .ret true ::
    (if ru.body.safe then [] else [.label ko, .restore 0, .ret false]), n)

/-- compile.c:465-466: all rules, one after the other. -/
def compAll : Grammar → (n : Nat) → List (List Ins)
  | [], _ => []
  | ru :: g, n => let (c, n) := compRule ru n
    c :: compAll g n

/-! ### Running it -/

/-- compile.c:608-632 `struct _GREG` as far as parsing goes, and `P->yypos`. -/
structure G where
  buf : Nat → Byte
  buflen : Nat
  pos : Nat
  limit : Nat
  text : List Byte
  textlen : Nat
  b : Nat
  e : Nat
  thunks : Nat → Thunk
  thunkslen : Nat
  thunkpos : Nat
  yypos : Nat
  errs : List Nat

/-- `while (!(enough n)) n *= 2`, at most `fuel` rounds. -/
def double (enough : Nat → Bool) : (fuel : Nat) → Nat → Option Nat
  | 0, _ => none
  | f+1, n => if enough n then some n else double enough f (2 * n)

/-- compile.c:634-645 `yyrefill` with syntax.y:29-40 `YY_INPUT`. The input string is followed by a NUL. `none`: bytes are written outside the
buffer. -/
def refill (inp : List Byte) (g : G) : Option (Bool × G) :=
  match double (fun n => decide (g.pos + 512 ≤ n)) (g.pos + 512) g.buflen with
  | none => none
  | some buflen =>
    let max := buflen - g.pos
    if g.yypos < inp.length then
      let result := if g.yypos + max > inp.length then inp.length - g.yypos else max
      if g.pos + (result + 1) ≤ buflen then
        some (true, { g with
          buflen := buflen
          buf := fun k => if g.pos ≤ k ∧ k < g.pos + (result + 1) then ((inp ++ [0])[g.yypos + (k - g.pos)]?).getD 0 else g.buf k
          yypos := g.yypos + max
          limit := g.limit + result })
      else none
    else some (false, { g with buflen := buflen })

/-- `if (G->pos >= G->limit && !yyrefill(G)) return 0;` -/
def look (inp : List Byte) (g : G) : Option (Bool × G) :=
  if g.pos ≥ g.limit then refill inp g else some (true, g)

/-- compile.c:647-652 `yymatchDot`. -/
def matchDot (inp : List Byte) (g : G) : Option (Bool × G) :=
  match look inp g with
  | some (true, g) => some (true, { g with pos := g.pos + 1 })
  | r => r

/-- compile.c:683-705 `yymatchChar`: a character of a C literal is signed, that of the buffer is not. -/
def matchChar (inp : List Byte) (c : Byte) (g : G) : Option (Bool × G) :=
  match look inp g with
  | some (true, g) => if ((g.buf g.pos).toNat : Int) = c.toInt then some (true, { g with pos := g.pos + 1 }) else some (false, g)
  | r => r

/-- compile.c:707-721 `yymatchString`: at the end of the input the position is left where it is. -/
def matchString (inp : List Byte) (sav : Nat) : List Byte → G → Option (Bool × G)
  | [], g => some (true, g)
  | c :: s, g => match look inp g with
    | some (true, g) => if g.buf g.pos ≠ c then some (false, { g with pos := sav }) else matchString inp sav s { g with pos := g.pos + 1 }
    | r => r

/-- compile.c:723-744 `yymatchClass`. -/
def matchClass (inp : List Byte) (text : List Byte) (g : G) : Option (Bool × G) :=
  match makeCharClass text with
  | none => none
  | some bits => match look inp g with
    | some (true, g) => if bits (g.buf g.pos).toNat then some (true, { g with pos := g.pos + 1 }) else some (false, g)
    | r => r

/-- compile.c:746-757 `yyDo`; `none`: outside the array. -/
def yyDo (t : Thunk) (g : G) : Option G :=
  match double (fun n => decide (g.thunkpos < n)) (g.thunkpos + 1) g.thunkslen with
  | none => none
  | some len =>
    if g.thunkpos < len then
      some { g with thunkslen := len, thunks := fun k => if k = g.thunkpos then t else g.thunks k, thunkpos := g.thunkpos + 1 }
    else none

/-- compile.c:759-773 `yyText`: the new contents of `G->text` up to its NUL, and its size. `none`: outside the buffers. -/
def yyText (buf : Nat → Byte) (buflen textlen b e : Nat) : Option (List Byte × Nat) :=
  if e ≤ b then (if 0 < textlen then some ([], textlen) else none)
  else match double (fun n => decide (e - b + 1 ≤ n)) (e - b + 1) textlen with
    | none => none
    | some len => if e ≤ buflen ∧ e - b + 1 ≤ len then some ((List.range (e - b)).map fun k => buf (b + k), len) else none

/-- Where a label is. -/
def labelAt (n : Nat) : List Ins → Option Nat
  | [] => none
  | .label k :: c => if k = n then some 0 else (labelAt n c).map (· + 1)
  | _ :: c => (labelAt n c).map (· + 1)

/-- Running the function `fn` from statement `pc`, at most `fuel` nested steps. `loc n` is `yypos<n>`, `yythunkpos<n>`. The
result is what the function returns; `none`: memory outside an array is accessed, or out of steps. -/
def exec (prog : List (List Ins)) (P : Nat → List Byte → Bool) (inp : List Byte) :
    (fuel : Nat) → (fn : List Ins) → (pc : Nat) → (loc : Nat → Nat × Nat) → G → Option (Bool × G)
  | 0, _, _, _, _ => none
  | f+1, fn, pc, loc, g =>
    let jump := fun (ko : Nat) (g : G) => match labelAt ko fn with
      | some k => exec prog P inp f fn k loc g
      | none => none
    let test := fun (ko : Nat) (r : Option (Bool × G)) => match r with
      | some (true, g) => exec prog P inp f fn (pc+1) loc g
      | some (false, g) => jump ko g
      | none => none
    match fn[pc]? with
    | none => none
    | some (.dot ko) => test ko (matchDot inp g)
    | some (.chr c ko) => test ko (matchChar inp c g)
    | some (.str s ko) => test ko (matchString inp g.pos s g)
    | some (.cls t ko) => test ko (matchClass inp t g)
    | some (.call r ko) => match prog[r]? with
      | some fn' => test ko (exec prog P inp f fn' 0 (fun _ => (0, 0)) g)
      | none => none
    | some (.yydo t) => match yyDo t g with
      | some g => exec prog P inp f fn (pc+1) loc g
      | none => none
    | some (.yyact a nv) => match yyDo (.act a nv g.b g.e) g with
      | some g => exec prog P inp f fn (pc+1) loc g
      | none => none
    | some (.pred p ko) => match yyText g.buf g.buflen g.textlen g.b g.e with
      | some (t, len) => test ko (some (P p t, { g with text := t, textlen := len }))
      | none => none
    | some .open => match yyText g.buf g.buflen g.textlen g.b g.e with
      | some (t, len) => exec prog P inp f fn (pc+1) loc { g with text := t, textlen := len, b := g.pos }
      | none => none
    | some .close => match yyText g.buf g.buflen g.textlen g.b g.e with
      | some (t, len) => exec prog P inp f fn (pc+1) loc { g with text := t, textlen := len, e := g.pos }
      | none => none
    | some (.err k) => match yyText g.buf g.buflen g.textlen g.b g.e with
      | some (t, len) => exec prog P inp f fn (pc+1) loc { g with text := t, textlen := len, errs := g.errs ++ [k] }
      | none => none
    | some (.save n) => exec prog P inp f fn (pc+1) (fun k => if k = n then (g.pos, g.thunkpos) else loc k) g
    | some (.restore n) => exec prog P inp f fn (pc+1) loc { g with pos := (loc n).1, thunkpos := (loc n).2 }
    | some (.label _) => exec prog P inp f fn (pc+1) loc g
    | some (.goto n) => jump n g
    | some (.ret b) => some (b, g)

/-! ### Running the actions -/

/-- The value stack: `G->vals`, its size, `G->val - G->vals`, `$$`, and `G->text` with its size. -/
structure D (α : Type) where
  vals : Nat → α
  valslen : Nat
  val : Nat
  yy : α
  text : List Byte
  textlen : Nat

/-- compile.c:781-788, 818-845: one thunk. An action reads and writes the variables of its rule, `G->val[-1]` ...; `yyleng` is the length of the text if `end` is
not 0. `none`: outside an array. -/
def doThunk {α : Type} (A : Nat → List Byte → (Nat → α) → α → (Nat → α) × α) (buf : Nat → Byte) (buflen : Nat) (d : D α) :
    Thunk → Option (D α)
  | .push n =>
    let off := d.val + n
    if off > d.valslen then
      match double (fun k => decide (off + 1 ≤ k)) (off + 1) d.valslen with
      | some len => some { d with valslen := len, val := off }
      | none => none
    else some { d with val := off }
  | .pop n => if n ≤ d.val then some { d with val := d.val - n } else none
  | .set off =>
    let k := (d.val : Int) + off
    if 0 ≤ k ∧ k < d.valslen then some { d with vals := fun j => if (j : Int) = k then d.yy else d.vals j } else none
  | .act a nv b e =>
    if nv ≤ d.val ∧ d.val ≤ d.valslen then
      match (if e ≠ 0 then yyText buf buflen d.textlen b e else some (d.text, d.textlen)) with
      | none => none
      | some (t, len) =>
        let r := A a t (fun i => d.vals (d.val - 1 - i)) d.yy
        some { d with
          vals := fun k => if d.val ≤ k + nv ∧ k < d.val then r.1 (d.val - 1 - k) else d.vals k
          yy := r.2
          text := t
          textlen := len }
    else none

/-- compile.c:775-790 `yyDone`. -/
def yyDone {α : Type} (A : Nat → List Byte → (Nat → α) → α → (Nat → α) × α) (buf : Nat → Byte) (buflen : Nat) :
    List Thunk → D α → Option (D α)
  | [], d => some d
  | t :: ts, d => match doThunk A buf buflen d t with
    | some d => yyDone A buf buflen ts d
    | none => none

/-- compile.c:528-533: sizes of the arrays. -/
def YY_STACK_SIZE : Nat := 1024
def YY_BUFFER_START_SIZE : Nat := 16384

/-- compile.c:862-884: the state in which the start rule is called; memory has the contents `buf`, `thunks`. -/
def init (buf : Nat → Byte) (thunks : Nat → Thunk) (text : List Byte) : G :=
  { buf := buf, buflen := YY_BUFFER_START_SIZE, pos := 0, limit := 0, text := text, textlen := YY_BUFFER_START_SIZE, b := 0, e := 0,
    thunks := thunks, thunkslen := YY_STACK_SIZE, thunkpos := 0, yypos := 0, errs := [] }

/-- compile.c:876-884: `yyok= yystart(G)`, `yystart` being the function of rule `r`. `yyparse` starts with the first rule (tree.c:86-87, compile.c:902-905);
potion_sig (syntax.y:455) with another. -/
def start (gr : Grammar) (r : Nat) (P : Nat → List Byte → Bool) (fuel : Nat) (inp : List Byte) (g : G) : Option (Bool × G) :=
  match (compAll gr 0)[r]? with
  | none => none
  | some fn => exec (compAll gr 0) P inp fuel fn 0 (fun _ => (0, 0)) g

/-- compile.c:857-886 `yyparse_from`: whether it succeeds, the state of the parser and the state after the actions. `vals` and `yy` are what memory
and `G->ss` held before. -/
def parse {α : Type} (gr : Grammar) (r : Nat) (P : Nat → List Byte → Bool) (A : Nat → List Byte → (Nat → α) → α → (Nat → α) × α)
    (fuel : Nat) (inp : List Byte) (g : G) (vals : Nat → α) (yy : α) : Option (Bool × G × D α) :=
  match start gr r P fuel inp g with
  | none => none
  | some (ok, g) =>
    let d : D α := { vals := vals, valslen := YY_STACK_SIZE, val := 0, yy := yy, text := g.text, textlen := g.textlen }
    if ok then
      match yyDone A g.buf g.buflen ((List.range g.thunkpos).map g.thunks) d with
      | some d => some (true, g, d)
      | none => none
    else some (false, g, d)

/-! ### The check for left recursion -/

mutual
/-- compile.c:934-992 `consumesInput` for a node: the result, and the rules a warning is printed for. `nm` is what it does for a rule.
(The text of a literal is empty when the literal is.) -/
def Exp.consumes (nm : Nat → Bool × List Nat) : Exp → Bool × List Nat
  | .any => (true, [])
  | .name r _ => nm r
  | .chr _ => (true, [])
  | .str s => (!s.isEmpty, [])
  | .cls _ => (true, [])
  | .act _ => (false, [])
  | .pred _ => (false, [])
  | .open => (false, [])
  | .close => (false, [])
  | .err e _ => e.consumes nm
  | .alt l => l.altConsumes nm
  | .seq l => l.seqConsumes nm
  | .peek _ => (false, [])
  | .not _ => (false, [])
  | .opt _ => (false, [])
  | .star _ => (false, [])
  | .plus e => e.consumes nm
/-- compile.c:964-970. -/
def Exps.altConsumes (nm : Nat → Bool × List Nat) : Exps → Bool × List Nat
  | .nil => (true, [])
  | .cons e l =>
    let a := e.consumes nm
    if a.1 then ((l.altConsumes nm).1, a.2 ++ (l.altConsumes nm).2) else (false, a.2)
/-- compile.c:973-979. -/
def Exps.seqConsumes (nm : Nat → Bool × List Nat) : Exps → Bool × List Nat
  | .nil => (false, [])
  | .cons e l =>
    let a := e.consumes nm
    if a.1 then (true, a.2) else ((l.seqConsumes nm).1, a.2 ++ (l.seqConsumes nm).2)
end

/-- compile.c:940-952: a rule; `reached` are the rules with the flag `RuleReached`. At most `fuel` nested rules: there are no more than rules in the
grammar, each is entered once. -/
def consumesRule (gr : Grammar) : (fuel : Nat) → (reached : List Nat) → Nat → Bool × List Nat
  | 0, _, _ => (false, [])
  | f+1, reached, r =>
    if reached.contains r then (false, [r])
    else match gr[r]? with
      | none => (false, [])
      | some ru => ru.body.consumes (consumesRule gr f (r :: reached))

/-- compile.c:1000-1001: the warnings of greg for a grammar. -/
def warnings (gr : Grammar) : List Nat := (List.range gr.length).flatMap fun r => (consumesRule gr (gr.length + 1) [] r).2

end Potion.Greg
