import Verif.Model.Peg
/-!
The grammar (/repo/core/syntax.y 61-385), rule by rule, and `potion_parse` (390-421).
Left out: the attribute rules for `extern` arguments other than names, types and defaults are included only as far as
`arg-list` (376-392) is concerned; line numbers.
-/
namespace Potion.Peg
open Potion

/-! ### Notation -/

/-- `a b`, keeping the value of `b`, or of `a`. -/
def right (a b : PExp) : PExp := .act (fun | .pair _ w => w | v => v) (.seq a b)
def left (a b : PExp) : PExp := .act (fun | .pair v _ => v | v => v) (.seq a b)
/-- `a?` -/
def opt (a : PExp) : PExp := .alt a .eps
/-- `a+` -/
def plus1 (a : PExp) : PExp := .seq a (.star a)
/-- A string given by its characters (all ASCII). -/
def ascii (s : String) : List Byte := s.toList.map fun c => BitVec.ofNat 8 c.toNat
def tok (s : String) : PExp := .lit (ascii s)
/-- A character class, as ranges of codes. -/
def cls (l : List (Nat × Nat)) : PExp := .chr fun b => l.any fun r => decide (r.1 ≤ b.toNat) && decide (b.toNat ≤ r.2)
/-- `a | b | ...` -/
def alts : List PExp → PExp
  | [] => .not .eps
  | [a] => a
  | a :: as => .alt a (alts as)
/-- PN_AST, PN_AST2, PN_AST3, PN_OP -/
def ast (k : Kind) (a : Tree) : Tree := .node k a .nil .nil
def ast2 (k : Kind) (a b : Tree) : Tree := .node k a b .nil

/-! ### Characters and white space (syntax.y 204-221, 343-349) -/

def cont : PExp := cls [(0x80, 0xBF)]
/-- syntax.y:206-209 and alike: the multi-byte part of `utff`, `utfw`. -/
def multi : PExp := alts [
  .seq (.lit [0xC4#8]) (cls [(0xA8, 0xBF)]),
  .seq (cls [(0xC5, 0xDF)]) cont,
  .seq (cls [(0xE0, 0xEF)]) (.seq cont cont),
  .seq (cls [(0xF0, 0xF4)]) (.seq cont (.seq cont cont))]
/-- syntax.y:205-209 -/
def utff : PExp := .alt (cls [(65, 90), (97, 122), (95, 95), (36, 36), (64, 64)]) multi
/-- syntax.y:210-214 -/
def utfw : PExp := .alt (cls [(65, 90), (97, 122), (48, 57), (95, 95), (36, 36), (64, 64), (59, 59), (96, 96),
  (123, 123), (125, 125)]) multi
/-- syntax.y:348-349 -/
def eol : PExp := alts [.lit [13#8, 10#8], .lit [10#8], .lit [13#8]]
/-- syntax.y:215-219 -/
def utf8 : PExp := alts [
  cls [(9, 9), (32, 126)],
  .seq (cls [(0xC2, 0xDF)]) cont,
  .seq (cls [(0xE0, 0xEF)]) (.seq cont cont),
  .seq (cls [(0xF0, 0xF4)]) (.seq cont (.seq cont cont)),
  eol]
/-- syntax.y:347 -/
def space : PExp := cls [(32, 32), (12, 12), (11, 11), (9, 9)]
/-- syntax.y:346 -/
def comment : PExp := .seq (tok "#") (.star (.seq (.not eol) utf8))
/-- syntax.y:343 `-` -/
def ws : PExp := .star (.alt space comment)
/-- syntax.y:344 `--` -/
def wsl : PExp := .star (alts [space, comment, eol])
/-- syntax.y:345 -/
def sep : PExp := .seq (.alt eol (tok ",")) (.star (alts [space, comment, eol, tok ","]))
/-- A token followed by `-` or `--`. -/
def t1 (s : String) : PExp := .seq (tok s) ws
def t2 (s : String) : PExp := .seq (tok s) wsl

/-! ### Tokens (syntax.y 223-272) -/

def blockStart : PExp := t2 ":"
def blockEnd : PExp := t1 "."
def listStart : PExp := t2 "("
def listEnd : PExp := t1 ")"
def lickStart : PExp := t2 "["
def lickEnd : PExp := t1 "]"
def groupStart : PExp := t2 "|"
def groupEnd : PExp := t1 "."
def quiz : PExp := t2 "?"
def assign : PExp := t2 "="
def defassign : PExp := t2 ":="
def pplus : PExp := t1 "++"
def mminus : PExp := t1 "--"
def minus : PExp := t2 "-"
def plus : PExp := t2 "+"
def wavy : PExp := t2 "~"
def times : PExp := t2 "*"
def div : PExp := t2 "/"
def rem : PExp := t2 "%"
def pow : PExp := t2 "**"
def bitl : PExp := t2 "<<"
def bitr : PExp := t2 ">>"
def amp : PExp := t2 "&"
def caret : PExp := t2 "^"
def pipe : PExp := t2 "|"
def lt : PExp := t2 "<"
def lte : PExp := t2 "<="
def gt : PExp := t2 ">"
def gte : PExp := t2 ">="
def neq : PExp := t2 "!="
def eq : PExp := t2 "=="
def cmp : PExp := t2 "<=>"
/-- A word not followed by a name character. -/
def word (s : String) : PExp := .seq (tok s) (.not utfw)
def and : PExp := .seq (.alt (tok "&&") (word "and")) wsl
def or : PExp := .seq (.alt (tok "||") (word "or")) wsl
def not : PExp := .seq (.alt (tok "!") (word "not")) wsl
/-- syntax.y:263 -/
def keyword : PExp := .seq (alts [tok "and", tok "or", tok "not"]) (.not utfw)

/-! ### Literals (syntax.y 191-202, 265-342) -/

def digit : PExp := cls [(48, 57)]
/-- syntax.y:268-269 -/
def hexl : PExp := cls [(48, 57), (65, 70), (97, 102)]
def hex : PExp := right (tok "0x") (.cap (plus1 hexl))
/-- syntax.y:271-273: the text of the whole; the flag (`YY_TDBL`) tells whether there was a fraction or an exponent. -/
def decInt : PExp := .alt (tok "0") (.seq (opt (tok "-")) (.seq (cls [(49, 57)]) (.star digit)))
def decFrac : PExp := .seq (tok ".") (plus1 digit)
def decExp : PExp := .seq (tok "e") (.seq (.alt (tok "-") (tok "+")) (plus1 digit))
/-- syntax.y:195-200: an integer if the text is one (`decInt` followed by neither a fraction nor an exponent). -/
def number : PExp := .alt
  (.act (fun | .pair t _ => (match t with | .str s => .imm (Dec.decLiteral s) | v => v) | v => v)
    (.seq (.cap decInt) (.not (.alt decFrac decExp))))
  (.act (fun | .str s => .dbl s | v => v) (.cap (.seq decInt (.seq (opt decFrac) (opt decExp)))))

/-- The concatenation of the pieces written to `P->pbuf`; none if an escape was refused. -/
def pieces : List Tree → Option (List Byte)
  | [] => some []
  | .str s :: l => (pieces l).map (s ++ ·)
  | _ :: _ => none
def joined : Tree → Tree
  | .tup l => match pieces l with
    | some s => .str s
    | none => .error
  | v => v
/-- An escape that stands for one byte. -/
def escape (c : String) (b : Byte) : PExp := .act (fun _ => .str [b]) (.seq (tok "\\") (tok c))
/-- syntax.y:281-327: `YY_ERROR` ends the process; here it is a piece `error`. -/
def escText (f : Nat → Option (List Byte)) : Tree → Tree
  | .str s => match f (Dec.atoi s 16).toNat with
    | some t => .str t
    | none => .error
  | v => v
/-- syntax.y:275-279 -/
def q1 : PExp := tok "'"
def c1 : PExp := .cap (plus1 (.seq (.not q1) utf8))
def str1 : PExp := .act joined (left (right q1 (.star (.alt (.act (fun _ => .str (ascii "'")) (.seq q1 q1)) c1))) q1)
/-- syntax.y:281-341 -/
def q2 : PExp := tok "\""
def esc : PExp := tok "\\"
def c2 : PExp := .cap (plus1 (.seq (.not q2) (.seq (.not esc) utf8)))
def str2 : PExp := .act joined (left (right q2 (.star (alts [
  escape "\"" 34#8, escape "n" 10#8, escape "b" 8#8, escape "f" 12#8, escape "r" 13#8, escape "t" 9#8,
  .act (escText Str.escu) (right esc (right (tok "u") (.cap (.seq hexl (.seq hexl (.seq hexl hexl)))))),
  .act (escText Str.escU) (right esc (right (tok "U{") (left (.cap (plus1 hexl)) (tok "}")))),
  right esc (.cap utf8), c2]))) q2)
/-- syntax.y:191-202 -/
def immed : PExp := alts [
  .act (fun _ => .nil) (word "nil"),
  .act (fun _ => .imm PN_TRUE) (word "true"),
  .act (fun _ => .imm PN_FALSE) (word "false"),
  .act (fun | .str s => .imm (Dec.hexLiteral s) | v => v) hex,
  number, str1, str2]

/-- syntax.y:184 -/
def path : PExp := right (tok "/") (left (.cap (.seq utff (.star utfw))) ws)
/-- syntax.y:185-187. The first alternative never matches: its repetition leaves nothing for `utfw+`. -/
def msg : PExp := .alt
  (.cap (.seq utff (.seq (.star (.alt utfw (cls [(46, 46), (58, 58)]))) (.seq (plus1 utfw) (opt (tok "?"))))))
  (.cap (.seq utff (.seq (.star utfw) (opt (tok "?")))))

/-! ### Rules -/

/-- `x:base (op y:base { x = PN_OP(kind, x, y) } | ...)*` -/
def foldOps : Tree → List Tree → Tree
  | x, [] => x
  | x, .node k _ y _ :: l => foldOps (ast2 k x y) l
  | x, _ :: l => foldOps x l
def chain (base : NT) (ops : List (PExp × Kind)) : PExp :=
  .act (fun | .pair x (.tup l) => foldOps x l | v => v)
    (.seq (.nt base) (.star (alts (ops.map fun o => .act (fun y => .node o.2 .nil y .nil) (right o.1 (.nt base))))))

/-- syntax.y:73-88, the action after the assignment operator: `=` and `:=` carry the kind `assign`. -/
def assigned : Tree → Tree
  | .pair e (.node .assign _ s _) => ast2 .assign e s
  | .pair e (.node k _ s _) => ast2 .assign e (ast2 k e s)
  | .pair e _ => e
  | v => v

/-- syntax.y:148: `n` with its arguments and block. -/
def withArgs : Tree → Tree
  | .pair (.node k a _ _) (.pair v b) => .node k a v b
  | v => v
/-- An optional part that is nil when absent. -/
def orNil (a : PExp) : PExp := .alt a (.act (fun _ => .nil) .eps)

/-- The items of `s1 (sep s2)* sep?`. -/
def items : Tree → Tree
  | .pair x (.pair (.tup l) _) => .tup (x :: l)
  | v => v

/-- syntax.y:357-384 `arg-list` inside `extern`: the elements pushed onto `P->source`. -/
def argName : PExp := left (.cap (.seq utff (.star utfw))) ws
def charNum : Tree → Tree
  | .str (b :: _) => .imm (pnNum b.toNat)
  | v => v
def argModifier : PExp := .act charNum (.cap (alts [tok "-", tok "\\", tok "*"]))
def argType : PExp := .act charNum (left (.cap (.chr fun b => b ∈ ascii "NBIDS&oTaubnsFPlkftxrcdm")) ws)
def nodeArg0 : Tree → Tree
  | .node _ a _ _ => a
  | v => v
def arg : PExp := alts [
  .act (fun | .pair m (.pair n t) => .tup [n, t, m] | v => v) (.seq argModifier (.seq argName (right assign argType))),
  .act (fun | .pair m n => .tup [n, .nil, m] | v => v) (.seq argModifier argName),
  .act (fun | .pair n t => .tup [n, t] | v => v) (.seq argName (right assign argType)),
  .act (fun | .pair n d => .tup [n, .imm (pnNum 58), nodeArg0 d] | v => v) (.seq argName (right defassign (.nt .value))),
  .act (fun n => .tup [n]) argName,
  .act (fun _ => .tup [.imm (pnNum 46)]) (t1 "...")]
/-- The elements of several arguments. -/
def concat : List Tree → List Tree
  | [] => []
  | .tup l :: r => l ++ concat r
  | _ :: r => concat r
def argSet : PExp := .act (fun | .pair x (.tup l) => .tup (concat (x :: l)) | v => v)
  (.seq arg (.star (right (.seq (tok ",") ws) arg)))
def optional : PExp := .act (fun _ => .tup [.imm (pnNum 124)]) (t1 "|")
def argList : PExp := .alt
  (.act (fun | .pair a (.pair o b) => .tup (concat [a, o, b]) | .pair a _ => a | v => v) (.seq argSet (opt (.seq optional argSet))))
  (.act (fun | .pair o b => .tup (concat [o, b]) | v => v) (.seq optional argSet))

/-- The names of the messages the parser makes itself. -/
def externName : Tree := .str (ascii "extern")

def rule : NT → PExp
  -- syntax.y:63-66
  | .statements => .alt
      (.act items (.seq (.nt .stmt) (.seq (.star (right sep (.nt .stmt))) (opt sep))))
      (.act (fun _ => .nil) .eps)
  -- syntax.y:68-71
  | .stmt => chain .sets [(or, .or), (and, .and)]
  -- syntax.y:73-88
  | .sets => .act assigned (.seq (.nt .eqs) (opt (alts [
      .act (fun s => .node .assign .nil s .nil) (right assign (.nt .sets)),
      .act (fun s => .node .assign .nil s .nil) (right defassign (.nt .value)),
      .act (fun s => .node .or .nil s .nil) (right (.seq or assign) (.nt .sets)),
      .act (fun s => .node .and .nil s .nil) (right (.seq and assign) (.nt .sets)),
      .act (fun s => .node .pipe .nil s .nil) (right (.seq pipe assign) (.nt .sets)),
      .act (fun s => .node .caret .nil s .nil) (right (.seq caret assign) (.nt .sets)),
      .act (fun s => .node .amp .nil s .nil) (right (.seq amp assign) (.nt .sets)),
      .act (fun s => .node .bitl .nil s .nil) (right (.seq bitl assign) (.nt .sets)),
      .act (fun s => .node .bitr .nil s .nil) (right (.seq bitr assign) (.nt .sets)),
      .act (fun s => .node .plus .nil s .nil) (right (.seq plus assign) (.nt .sets)),
      .act (fun s => .node .minus .nil s .nil) (right (.seq minus assign) (.nt .sets)),
      .act (fun s => .node .times .nil s .nil) (right (.seq times assign) (.nt .sets)),
      .act (fun s => .node .div .nil s .nil) (right (.seq div assign) (.nt .sets)),
      .act (fun s => .node .rem .nil s .nil) (right (.seq rem assign) (.nt .sets)),
      .act (fun s => .node .pow .nil s .nil) (right (.seq pow assign) (.nt .sets))])))
  -- syntax.y:90-94
  | .eqs => chain .cmps [(cmp, .cmp), (eq, .eq), (neq, .neq)]
  -- syntax.y:96-101
  | .cmps => chain .bitors [(gte, .gte), (gt, .gt), (lte, .lte), (lt, .lt)]
  -- syntax.y:103-106
  | .bitors => chain .bitand [(pipe, .pipe), (caret, .caret)]
  -- syntax.y:108-110
  | .bitand => chain .bitshift [(amp, .amp)]
  -- syntax.y:112-115
  | .bitshift => chain .sum [(bitl, .bitl), (bitr, .bitr)]
  -- syntax.y:117-120
  | .sum => chain .product [(plus, .plus), (minus, .minus)]
  -- syntax.y:122-126
  | .product => chain .power [(times, .times), (div, .div), (rem, .rem)]
  -- syntax.y:128-130
  | .power => chain .expr [(pow, .pow)]
  -- syntax.y:132-141
  | .expr => .act (fun | .pair a (.tup l) => ast .expr (.tup (a :: l)) | v => v) (.seq (alts [
      .act (ast .not) (right not (.nt .expr)),
      .act (ast .wavy) (right wavy (.nt .expr)),
      .act (ast2 .minus (ast .value (.imm (pnNum 0)))) (right (.seq minus (.not minus)) (.nt .atom)),
      .act (ast2 .plus (ast .value (.imm (pnNum 0)))) (right (.seq plus (.not plus)) (.nt .atom)),
      .act (fun a => ast2 .inc a (.imm (pnNum (-1) ^^^ 1#64))) (right mminus (.nt .atom)),
      .act (fun a => ast2 .inc a (.imm (pnNum 1 ^^^ 1#64))) (right pplus (.nt .atom)),
      .act (fun | .pair a (.imm w) => ast2 .inc a (.imm w) | .pair a _ => a | v => v)
        (.seq (.nt .atom) (opt (.alt (.act (fun _ => .imm (pnNum 1)) pplus) (.act (fun _ => .imm (pnNum (-1))) mminus))))])
      (.star (.nt .call)))
  -- syntax.y:144
  | .atom => alts [.nt .value, .nt .closure, .nt .list, .nt .extern, .nt .call]
  -- syntax.y:146-148
  | .call => .act withArgs (.alt
      (.seq (.nt .name) (.seq (orNil (.alt (.nt .value) (.nt .list))) (orNil (.alt (.nt .block) (.nt .closure)))))
      (.act (fun | .pair v b => .pair (ast .msg .nil) (.pair v b) | v => v)
        (.seq (.alt (.nt .value) (.nt .list)) (orNil (.nt .block)))))
  -- syntax.y:150-153
  | .extern => .alt
      (.act (fun | .pair n l => ast2 .msg externName (.tup [n, l]) | v => v)
        (right (t1 "extern") (.seq (left (.nt .name) listStart) (left argList listEnd))))
      (.act (fun n => ast2 .msg externName (.tup [n])) (right (t1 "extern") (.nt .name)))
  -- syntax.y:155-160
  | .name => alts [
      .act (ast .path) path,
      right quiz (.alt (.act (ast .query) (left msg ws)) (.act (ast .pathq) path)),
      .act (ast .value) (left (.nt .tuple) ws),
      .act (ast .msg) (right (.not keyword) (left msg ws))]
  -- syntax.y:162-165
  | .lickItems => .alt
      (.act items (.seq (.nt .lickItem) (.seq (.star (right sep (.nt .lickItem))) (opt sep))))
      (.act (fun _ => .nil) .eps)
  -- syntax.y:167-172
  | .lickItem => alts [
      .act (fun | .pair m (.pair t v) => .node .lick m v t | v => v) (.seq (left msg ws) (.seq (.nt .list) (.nt .loose))),
      .act (fun | .pair m t => .node .lick m .nil t | v => v) (.seq (left msg ws) (.nt .list)),
      .act (fun | .pair m (.pair v t) => .node .lick m v t | v => v) (.seq (left msg ws) (.seq (.nt .loose) (.nt .list))),
      .act (fun | .pair m v => ast2 .lick m v | v => v) (.seq (left msg ws) (.nt .loose)),
      .act (ast .lick) (left msg ws),
      .act (ast .lick) (left (.nt .loose) ws)]
  -- syntax.y:174-175, 336-341
  | .loose => .alt (.nt .value) (.act (ast .value) (.cap (plus1 (.seq
      (.not (.seq sep (.seq (.not (tok "{")) (.seq (.not (tok "[")) (.not (tok "("))))))
      (.seq (.not lickEnd) (.nt .unqChar))))))
  -- syntax.y:177
  | .closure => .act (fun | .pair t b => ast2 .proto t b | v => v)
      (.seq (.alt (.nt .list) (.act (fun _ => .stale) .eps)) (.nt .block))
  -- syntax.y:178-182
  | .list => .act (ast .list) (right listStart (left (.nt .statements) listEnd))
  | .block => .act (ast .block) (right blockStart (left (.nt .statements) blockEnd))
  | .lick => .act (ast .list) (right lickStart (left (.nt .lickItems) lickEnd))
  | .group => .act (ast .expr) (right groupStart (left (.nt .statements) groupEnd))
  | .tuple => .act (fun | .pair m l => ast2 .lick (ast .msg m) l | v => v) (.seq msg (.nt .lick))
  -- syntax.y:189-192
  | .value => alts [.act (ast .value) (left immed ws), .act (ast .value) (left (.nt .tuple) ws), .nt .lick, .nt .group]
  -- syntax.y:330-333
  | .unqChar => alts [
      .seq (tok "{") (.seq (plus1 (.nt .unqChar)) (tok "}")),
      .seq (tok "[") (.seq (plus1 (.nt .unqChar)) (tok "]")),
      .seq (tok "(") (.seq (plus1 (.nt .unqChar)) (tok ")")),
      .seq (.not (cls [(123, 123), (91, 91), (40, 40), (125, 125), (93, 93), (41, 41)])) utf8]

/-- syntax.y:61 -/
def program : PExp := .act (ast .code) (right wsl (left (.nt .statements) (.not (.chr fun _ => true))))

/-- syntax.y:390-421 `potion_parse`: `some none` is a syntax error (which ends the process, tools/compile.c:661-681). -/
def parse (fuel : Nat) (text : List Byte) : Option (Option Tree) := (run rule fuel program text).map (·.map (·.1))

end Potion.Peg
