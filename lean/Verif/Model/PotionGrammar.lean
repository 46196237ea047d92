import Verif.Model.Greg
/-!
Potion's grammar, /repo/core/syntax.y 61-379, as the tree greg makes of it (/repo/tools/greg.y, /repo/tools/tree.c). Transcribed mechanically:
rules in the order of the file; actions numbered in the order of the file; the variables of a rule numbered as in
compile.c:397-406 (the last one to be mentioned first is number 0, tree.c:92-104); literals of one character are `chr` (compile.c:238-249); escapes in literals
are replaced by the bytes they stand for; the text of classes is kept. `-` and `--` are `R.sp` and `R.spnl`.
-/
namespace Potion.Greg

/-- tree.c:159-221: alternatives, sequences. -/
def Exps.ofList : List Exp → Exps
  | [] => .nil
  | e :: l => .cons e (.ofList l)
def choice (l : List Exp) : Exp := .alt (.ofList l)
def sequ (l : List Exp) : Exp := .seq (.ofList l)

/-! Rule numbers. -/
namespace R
/-- syntax.y:61 -/
abbrev potion : Nat := 0
/-- syntax.y:63 -/
abbrev statements : Nat := 1
/-- syntax.y:68 -/
abbrev stmt : Nat := 2
/-- syntax.y:73 -/
abbrev sets : Nat := 3
/-- syntax.y:91 -/
abbrev eqs : Nat := 4
/-- syntax.y:97 -/
abbrev cmps : Nat := 5
/-- syntax.y:104 -/
abbrev bitors : Nat := 6
/-- syntax.y:109 -/
abbrev bitand : Nat := 7
/-- syntax.y:113 -/
abbrev bitshift : Nat := 8
/-- syntax.y:118 -/
abbrev sum_ : Nat := 9
/-- syntax.y:123 -/
abbrev product : Nat := 10
/-- syntax.y:129 -/
abbrev power : Nat := 11
/-- syntax.y:133 -/
abbrev expr : Nat := 12
/-- syntax.y:144 -/
abbrev atom : Nat := 13
/-- syntax.y:146 -/
abbrev call_ : Nat := 14
/-- syntax.y:150 -/
abbrev extern_ : Nat := 15
/-- syntax.y:155 -/
abbrev name_ : Nat := 16
/-- syntax.y:162 -/
abbrev lick_items : Nat := 17
/-- syntax.y:167 -/
abbrev lick_item : Nat := 18
/-- syntax.y:174 -/
abbrev loose : Nat := 19
/-- syntax.y:177 -/
abbrev closure : Nat := 20
/-- syntax.y:178 -/
abbrev list_ : Nat := 21
/-- syntax.y:179 -/
abbrev block_ : Nat := 22
/-- syntax.y:180 -/
abbrev lick : Nat := 23
/-- syntax.y:181 -/
abbrev group : Nat := 24
/-- syntax.y:182 -/
abbrev tuple : Nat := 25
/-- syntax.y:184 -/
abbrev path_ : Nat := 26
/-- syntax.y:185 -/
abbrev msg : Nat := 27
/-- syntax.y:189 -/
abbrev value_ : Nat := 28
/-- syntax.y:194 -/
abbrev immed : Nat := 29
/-- syntax.y:205 -/
abbrev utff : Nat := 30
/-- syntax.y:210 -/
abbrev utfw : Nat := 31
/-- syntax.y:215 -/
abbrev utf8 : Nat := 32
/-- syntax.y:221 -/
abbrev comma : Nat := 33
/-- syntax.y:222 -/
abbrev block_start : Nat := 34
/-- syntax.y:223 -/
abbrev block_end : Nat := 35
/-- syntax.y:224 -/
abbrev list_start : Nat := 36
/-- syntax.y:225 -/
abbrev list_end : Nat := 37
/-- syntax.y:226 -/
abbrev lick_start : Nat := 38
/-- syntax.y:227 -/
abbrev lick_end : Nat := 39
/-- syntax.y:228 -/
abbrev group_start : Nat := 40
/-- syntax.y:229 -/
abbrev group_end : Nat := 41
/-- syntax.y:230 -/
abbrev quiz : Nat := 42
/-- syntax.y:231 -/
abbrev assign : Nat := 43
/-- syntax.y:232 -/
abbrev defassign : Nat := 44
/-- syntax.y:233 -/
abbrev pplus : Nat := 45
/-- syntax.y:234 -/
abbrev mminus : Nat := 46
/-- syntax.y:235 -/
abbrev minus : Nat := 47
/-- syntax.y:236 -/
abbrev plus : Nat := 48
/-- syntax.y:237 -/
abbrev wavy : Nat := 49
/-- syntax.y:238 -/
abbrev times : Nat := 50
/-- syntax.y:239 -/
abbrev div_ : Nat := 51
/-- syntax.y:240 -/
abbrev rem_ : Nat := 52
/-- syntax.y:241 -/
abbrev pow_ : Nat := 53
/-- syntax.y:242 -/
abbrev bitl : Nat := 54
/-- syntax.y:243 -/
abbrev bitr : Nat := 55
/-- syntax.y:244 -/
abbrev amp : Nat := 56
/-- syntax.y:245 -/
abbrev caret : Nat := 57
/-- syntax.y:246 -/
abbrev pipe : Nat := 58
/-- syntax.y:247 -/
abbrev lt_ : Nat := 59
/-- syntax.y:248 -/
abbrev lte : Nat := 60
/-- syntax.y:249 -/
abbrev gt_ : Nat := 61
/-- syntax.y:250 -/
abbrev gte : Nat := 62
/-- syntax.y:251 -/
abbrev neq : Nat := 63
/-- syntax.y:252 -/
abbrev eq_ : Nat := 64
/-- syntax.y:253 -/
abbrev cmp : Nat := 65
/-- syntax.y:254 -/
abbrev and_ : Nat := 66
/-- syntax.y:255 -/
abbrev or_ : Nat := 67
/-- syntax.y:256 -/
abbrev not_ : Nat := 68
/-- syntax.y:257 -/
abbrev keyword : Nat := 69
/-- syntax.y:259 -/
abbrev nil_ : Nat := 70
/-- syntax.y:260 -/
abbrev true_ : Nat := 71
/-- syntax.y:261 -/
abbrev false_ : Nat := 72
/-- syntax.y:262 -/
abbrev hexl : Nat := 73
/-- syntax.y:263 -/
abbrev hex : Nat := 74
/-- syntax.y:265 -/
abbrev dec_ : Nat := 75
/-- syntax.y:269 -/
abbrev q1 : Nat := 76
/-- syntax.y:270 -/
abbrev c1 : Nat := 77
/-- syntax.y:271 -/
abbrev str1 : Nat := 78
/-- syntax.y:275 -/
abbrev esc : Nat := 79
/-- syntax.y:276 -/
abbrev escn : Nat := 80
/-- syntax.y:277 -/
abbrev escb : Nat := 81
/-- syntax.y:278 -/
abbrev escf : Nat := 82
/-- syntax.y:279 -/
abbrev escr : Nat := 83
/-- syntax.y:280 -/
abbrev esct : Nat := 84
/-- syntax.y:281 -/
abbrev escu : Nat := 85
/-- syntax.y:301 -/
abbrev escU : Nat := 86
/-- syntax.y:328 -/
abbrev escc : Nat := 87
/-- syntax.y:330 -/
abbrev q2 : Nat := 88
/-- syntax.y:331 -/
abbrev e2 : Nat := 89
/-- syntax.y:332 -/
abbrev c2 : Nat := 90
/-- syntax.y:333 -/
abbrev str2 : Nat := 91
/-- syntax.y:337 -/
abbrev unq_char : Nat := 92
/-- syntax.y:341 -/
abbrev unq_sep : Nat := 93
/-- syntax.y:342 -/
abbrev unquoted : Nat := 94
/-- syntax.y:344 -/
abbrev sp : Nat := 95
/-- syntax.y:345 -/
abbrev spnl : Nat := 96
/-- syntax.y:346 -/
abbrev sep_ : Nat := 97
/-- syntax.y:347 -/
abbrev comment_ : Nat := 98
/-- syntax.y:348 -/
abbrev space_ : Nat := 99
/-- syntax.y:349 -/
abbrev end_of_line : Nat := 100
/-- syntax.y:351 -/
abbrev end_of_file : Nat := 101
/-- syntax.y:353 -/
abbrev sig : Nat := 102
/-- syntax.y:354 -/
abbrev args : Nat := 103
/-- syntax.y:355 -/
abbrev arg_list : Nat := 104
/-- syntax.y:357 -/
abbrev arg_set : Nat := 105
/-- syntax.y:359 -/
abbrev arg_name : Nat := 106
/-- syntax.y:361 -/
abbrev arg_modifier : Nat := 107
/-- syntax.y:363 -/
abbrev arg_type : Nat := 108
/-- syntax.y:364 -/
abbrev arg : Nat := 109
/-- syntax.y:376 -/
abbrev optional : Nat := 110
/-- syntax.y:377 -/
abbrev arg_rest : Nat := 111
/-- syntax.y:378 -/
abbrev arg_sep : Nat := 112
end R

/-- syntax.y:61-379. Each line cites its rule. -/
def potionGrammar : Grammar := [
  /- syntax.y:61 potion -/ ⟨1, sequ [.name R.spnl none, .name R.statements (some 0), .name R.end_of_file none, .act 0]⟩,
  /- syntax.y:63 statements -/ ⟨2, choice [sequ [.name R.stmt (some 1), .act 1, .star (sequ [.name R.sep_ none, .name R.stmt (some 0), .act 2]), .opt (.name R.sep_ none)], sequ [.str [], .act 3]]⟩,
  /- syntax.y:68 stmt -/ ⟨2, sequ [.name R.sets (some 1), .star (choice [sequ [.name R.or_ none, .name R.sets (some 0), .act 4], sequ [.name R.and_ none, .name R.sets (some 0), .act 5]]), .act 6]⟩,
  /- syntax.y:73 sets -/ ⟨2, sequ [.name R.eqs (some 1), .opt (choice [sequ [.name R.assign none, .name R.sets (some 0), .act 7], sequ [.name R.defassign none, .name R.value_ (some 0), .act 8], sequ [.name R.or_ none, .name R.assign none, .name R.sets (some 0), .act 9], sequ [.name R.and_ none, .name R.assign none, .name R.sets (some 0), .act 10], sequ [.name R.pipe none, .name R.assign none, .name R.sets (some 0), .act 11], sequ [.name R.caret none, .name R.assign none, .name R.sets (some 0), .act 12], sequ [.name R.amp none, .name R.assign none, .name R.sets (some 0), .act 13], sequ [.name R.bitl none, .name R.assign none, .name R.sets (some 0), .act 14], sequ [.name R.bitr none, .name R.assign none, .name R.sets (some 0), .act 15], sequ [.name R.plus none, .name R.assign none, .name R.sets (some 0), .act 16], sequ [.name R.minus none, .name R.assign none, .name R.sets (some 0), .act 17], sequ [.name R.times none, .name R.assign none, .name R.sets (some 0), .act 18], sequ [.name R.div_ none, .name R.assign none, .name R.sets (some 0), .act 19], sequ [.name R.rem_ none, .name R.assign none, .name R.sets (some 0), .act 20], sequ [.name R.pow_ none, .name R.assign none, .name R.sets (some 0), .act 21]]), .act 22]⟩,
  /- syntax.y:91 eqs -/ ⟨2, sequ [.name R.cmps (some 1), .star (choice [sequ [.name R.cmp none, .name R.cmps (some 0), .act 23], sequ [.name R.eq_ none, .name R.cmps (some 0), .act 24], sequ [.name R.neq none, .name R.cmps (some 0), .act 25]]), .act 26]⟩,
  /- syntax.y:97 cmps -/ ⟨2, sequ [.name R.bitors (some 1), .star (choice [sequ [.name R.gte none, .name R.bitors (some 0), .act 27], sequ [.name R.gt_ none, .name R.bitors (some 0), .act 28], sequ [.name R.lte none, .name R.bitors (some 0), .act 29], sequ [.name R.lt_ none, .name R.bitors (some 0), .act 30]]), .act 31]⟩,
  /- syntax.y:104 bitors -/ ⟨2, sequ [.name R.bitand (some 1), .star (choice [sequ [.name R.pipe none, .name R.bitand (some 0), .act 32], sequ [.name R.caret none, .name R.bitand (some 0), .act 33]]), .act 34]⟩,
  /- syntax.y:109 bitand -/ ⟨2, sequ [.name R.bitshift (some 1), .star (sequ [.name R.amp none, .name R.bitshift (some 0), .act 35]), .act 36]⟩,
  /- syntax.y:113 bitshift -/ ⟨2, sequ [.name R.sum_ (some 1), .star (choice [sequ [.name R.bitl none, .name R.sum_ (some 0), .act 37], sequ [.name R.bitr none, .name R.sum_ (some 0), .act 38]]), .act 39]⟩,
  /- syntax.y:118 sum -/ ⟨2, sequ [.name R.product (some 1), .star (choice [sequ [.name R.plus none, .name R.product (some 0), .act 40], sequ [.name R.minus none, .name R.product (some 0), .act 41]]), .act 42]⟩,
  /- syntax.y:123 product -/ ⟨2, sequ [.name R.power (some 1), .star (choice [sequ [.name R.times none, .name R.power (some 0), .act 43], sequ [.name R.div_ none, .name R.power (some 0), .act 44], sequ [.name R.rem_ none, .name R.power (some 0), .act 45]]), .act 46]⟩,
  /- syntax.y:129 power -/ ⟨2, sequ [.name R.expr (some 1), .star (sequ [.name R.pow_ none, .name R.expr (some 0), .act 47]), .act 48]⟩,
  /- syntax.y:133 expr -/ ⟨2, sequ [choice [sequ [.name R.not_ none, .name R.expr (some 1), .act 49], sequ [.name R.wavy none, .name R.expr (some 1), .act 50], sequ [.name R.minus none, .not (.name R.minus none), .name R.atom (some 1), .act 51], sequ [.name R.plus none, .not (.name R.plus none), .name R.atom (some 1), .act 52], sequ [.name R.mminus none, .name R.atom (some 1), .act 53], sequ [.name R.pplus none, .name R.atom (some 1), .act 54], sequ [.name R.atom (some 1), .opt (choice [sequ [.name R.pplus none, .act 55], sequ [.name R.mminus none, .act 56]])]], .act 57, .star (sequ [.name R.call_ (some 0), .act 58]), .act 59]⟩,
  /- syntax.y:144 atom -/ ⟨1, choice [.name R.value_ (some 0), .name R.closure (some 0), .name R.list_ (some 0), .name R.extern_ (some 0), .name R.call_ (some 0)]⟩,
  /- syntax.y:146 call -/ ⟨3, sequ [choice [sequ [.name R.name_ (some 2), .act 60, .opt (choice [.name R.value_ (some 1), .name R.list_ (some 1)]), .opt (choice [.name R.block_ (some 0), .name R.closure (some 0)])], sequ [choice [.name R.value_ (some 1), .name R.list_ (some 1)], .act 61, .opt (.name R.block_ (some 0))]], .act 62]⟩,
  /- syntax.y:150 extern -/ ⟨2, choice [sequ [.str [0x65, 0x78, 0x74, 0x65, 0x72, 0x6E], .name R.sp none, .name R.name_ (some 1), .name R.list_start none, .act 63, .name R.arg_list (some 0), .name R.list_end none, .act 64], sequ [.str [0x65, 0x78, 0x74, 0x65, 0x72, 0x6E], .name R.sp none, .name R.name_ (some 1), .act 65]]⟩,
  /- syntax.y:155 name -/ ⟨3, choice [sequ [.name R.path_ (some 2), .act 66], sequ [.name R.quiz none, choice [sequ [.name R.msg (some 1), .name R.sp none, .act 67], sequ [.name R.path_ (some 2), .act 68]]], sequ [.name R.tuple (some 0), .name R.sp none, .act 69], sequ [.not (.name R.keyword none), .name R.msg (some 1), .name R.sp none, .act 70]]⟩,
  /- syntax.y:162 lick-items -/ ⟨2, choice [sequ [.name R.lick_item (some 1), .act 71, .star (sequ [.name R.sep_ none, .name R.lick_item (some 0), .act 72]), .opt (.name R.sep_ none)], sequ [.str [], .act 73]]⟩,
  /- syntax.y:167 lick-item -/ ⟨3, choice [sequ [.name R.msg (some 2), .name R.sp none, .name R.list_ (some 1), .name R.loose (some 0), .act 74], sequ [.name R.msg (some 2), .name R.sp none, .name R.list_ (some 1), .act 75], sequ [.name R.msg (some 2), .name R.sp none, .name R.loose (some 0), .name R.list_ (some 1), .act 76], sequ [.name R.msg (some 2), .name R.sp none, .name R.loose (some 0), .act 77], sequ [.name R.msg (some 2), .name R.sp none, .act 78], sequ [.name R.loose (some 0), .name R.sp none, .act 79]]⟩,
  /- syntax.y:174 loose -/ ⟨1, choice [.name R.value_ none, sequ [.name R.unquoted (some 0), .act 80]]⟩,
  /- syntax.y:177 closure -/ ⟨2, sequ [.opt (.name R.list_ (some 1)), .name R.block_ (some 0), .act 81]⟩,
  /- syntax.y:178 list -/ ⟨1, sequ [.name R.list_start none, .name R.statements (some 0), .name R.list_end none, .act 82]⟩,
  /- syntax.y:179 block -/ ⟨1, sequ [.name R.block_start none, .name R.statements (some 0), .name R.block_end none, .act 83]⟩,
  /- syntax.y:180 lick -/ ⟨1, sequ [.name R.lick_start none, .name R.lick_items (some 0), .name R.lick_end none, .act 84]⟩,
  /- syntax.y:181 group -/ ⟨1, sequ [.name R.group_start none, .name R.statements (some 0), .name R.group_end none, .act 85]⟩,
  /- syntax.y:182 tuple -/ ⟨2, sequ [.name R.msg (some 1), .name R.lick (some 0), .act 86]⟩,
  /- syntax.y:184 path -/ ⟨0, sequ [.chr 0x2F, .open, .name R.utff none, .star (.name R.utfw none), .close, .name R.sp none, .act 87]⟩,
  /- syntax.y:185 msg -/ ⟨0, choice [sequ [.open, .name R.utff none, .star (choice [.name R.utfw none, .cls [0x2E, 0x3A]]), .plus (.name R.utfw none), .opt (.chr 0x3F), .close, .act 88], sequ [.open, .name R.utff none, .star (.name R.utfw none), .opt (.chr 0x3F), .close, .act 89]]⟩,
  /- syntax.y:189 value -/ ⟨2, choice [sequ [.name R.immed (some 1), .name R.sp none, .act 90], sequ [.name R.tuple (some 0), .name R.sp none, .act 91], .name R.lick none, .name R.group none]⟩,
  /- syntax.y:194 immed -/ ⟨0, choice [sequ [.name R.nil_ none, .act 92], sequ [.name R.true_ none, .act 93], sequ [.name R.false_ none, .act 94], sequ [.name R.hex none, .act 95], sequ [.name R.dec_ none, .act 96], .name R.str1 none, .name R.str2 none]⟩,
  /- syntax.y:205 utff -/ ⟨0, choice [.cls [0x41, 0x2D, 0x5A, 0x61, 0x2D, 0x7A, 0x5F, 0x24, 0x40], sequ [.str [0xC4], .cls [0x5C, 0x32, 0x35, 0x30, 0x2D, 0x5C, 0x32, 0x37, 0x37]], sequ [.cls [0x5C, 0x33, 0x30, 0x35, 0x2D, 0x5C, 0x33, 0x33, 0x37], .cls [0x5C, 0x32, 0x30, 0x30, 0x2D, 0x5C, 0x32, 0x37, 0x37]], sequ [.cls [0x5C, 0x33, 0x34, 0x30, 0x2D, 0x5C, 0x33, 0x35, 0x37], .cls [0x5C, 0x32, 0x30, 0x30, 0x2D, 0x5C, 0x32, 0x37, 0x37], .cls [0x5C, 0x32, 0x30, 0x30, 0x2D, 0x5C, 0x32, 0x37, 0x37]], sequ [.cls [0x5C, 0x33, 0x36, 0x30, 0x2D, 0x5C, 0x33, 0x36, 0x34], .cls [0x5C, 0x32, 0x30, 0x30, 0x2D, 0x5C, 0x32, 0x37, 0x37], .cls [0x5C, 0x32, 0x30, 0x30, 0x2D, 0x5C, 0x32, 0x37, 0x37], .cls [0x5C, 0x32, 0x30, 0x30, 0x2D, 0x5C, 0x32, 0x37, 0x37]]]⟩,
  /- syntax.y:210 utfw -/ ⟨0, choice [.cls [0x41, 0x2D, 0x5A, 0x61, 0x2D, 0x7A, 0x30, 0x2D, 0x39, 0x5F, 0x24, 0x40, 0x3B, 0x60, 0x7B, 0x7D], sequ [.str [0xC4], .cls [0x5C, 0x32, 0x35, 0x30, 0x2D, 0x5C, 0x32, 0x37, 0x37]], sequ [.cls [0x5C, 0x33, 0x30, 0x35, 0x2D, 0x5C, 0x33, 0x33, 0x37], .cls [0x5C, 0x32, 0x30, 0x30, 0x2D, 0x5C, 0x32, 0x37, 0x37]], sequ [.cls [0x5C, 0x33, 0x34, 0x30, 0x2D, 0x5C, 0x33, 0x35, 0x37], .cls [0x5C, 0x32, 0x30, 0x30, 0x2D, 0x5C, 0x32, 0x37, 0x37], .cls [0x5C, 0x32, 0x30, 0x30, 0x2D, 0x5C, 0x32, 0x37, 0x37]], sequ [.cls [0x5C, 0x33, 0x36, 0x30, 0x2D, 0x5C, 0x33, 0x36, 0x34], .cls [0x5C, 0x32, 0x30, 0x30, 0x2D, 0x5C, 0x32, 0x37, 0x37], .cls [0x5C, 0x32, 0x30, 0x30, 0x2D, 0x5C, 0x32, 0x37, 0x37], .cls [0x5C, 0x32, 0x30, 0x30, 0x2D, 0x5C, 0x32, 0x37, 0x37]]]⟩,
  /- syntax.y:215 utf8 -/ ⟨0, choice [.cls [0x5C, 0x74, 0x5C, 0x34, 0x30, 0x2D, 0x5C, 0x31, 0x37, 0x36], sequ [.cls [0x5C, 0x33, 0x30, 0x32, 0x2D, 0x5C, 0x33, 0x33, 0x37], .cls [0x5C, 0x32, 0x30, 0x30, 0x2D, 0x5C, 0x32, 0x37, 0x37]], sequ [.cls [0x5C, 0x33, 0x34, 0x30, 0x2D, 0x5C, 0x33, 0x35, 0x37], .cls [0x5C, 0x32, 0x30, 0x30, 0x2D, 0x5C, 0x32, 0x37, 0x37], .cls [0x5C, 0x32, 0x30, 0x30, 0x2D, 0x5C, 0x32, 0x37, 0x37]], sequ [.cls [0x5C, 0x33, 0x36, 0x30, 0x2D, 0x5C, 0x33, 0x36, 0x34], .cls [0x5C, 0x32, 0x30, 0x30, 0x2D, 0x5C, 0x32, 0x37, 0x37], .cls [0x5C, 0x32, 0x30, 0x30, 0x2D, 0x5C, 0x32, 0x37, 0x37], .cls [0x5C, 0x32, 0x30, 0x30, 0x2D, 0x5C, 0x32, 0x37, 0x37]], .name R.end_of_line none]⟩,
  /- syntax.y:221 comma -/ ⟨0, .chr 0x2C⟩,
  /- syntax.y:222 block-start -/ ⟨0, sequ [.chr 0x3A, .name R.spnl none]⟩,
  /- syntax.y:223 block-end -/ ⟨0, sequ [.chr 0x2E, .name R.sp none]⟩,
  /- syntax.y:224 list-start -/ ⟨0, sequ [.chr 0x28, .name R.spnl none]⟩,
  /- syntax.y:225 list-end -/ ⟨0, sequ [.chr 0x29, .name R.sp none]⟩,
  /- syntax.y:226 lick-start -/ ⟨0, sequ [.chr 0x5B, .name R.spnl none]⟩,
  /- syntax.y:227 lick-end -/ ⟨0, sequ [.chr 0x5D, .name R.sp none]⟩,
  /- syntax.y:228 group-start -/ ⟨0, sequ [.chr 0x7C, .name R.spnl none]⟩,
  /- syntax.y:229 group-end -/ ⟨0, sequ [.chr 0x2E, .name R.sp none]⟩,
  /- syntax.y:230 quiz -/ ⟨0, sequ [.chr 0x3F, .name R.spnl none]⟩,
  /- syntax.y:231 assign -/ ⟨0, sequ [.chr 0x3D, .name R.spnl none]⟩,
  /- syntax.y:232 defassign -/ ⟨0, sequ [.str [0x3A, 0x3D], .name R.spnl none]⟩,
  /- syntax.y:233 pplus -/ ⟨0, sequ [.str [0x2B, 0x2B], .name R.sp none]⟩,
  /- syntax.y:234 mminus -/ ⟨0, sequ [.str [0x2D, 0x2D], .name R.sp none]⟩,
  /- syntax.y:235 minus -/ ⟨0, sequ [.chr 0x2D, .name R.spnl none]⟩,
  /- syntax.y:236 plus -/ ⟨0, sequ [.chr 0x2B, .name R.spnl none]⟩,
  /- syntax.y:237 wavy -/ ⟨0, sequ [.chr 0x7E, .name R.spnl none]⟩,
  /- syntax.y:238 times -/ ⟨0, sequ [.chr 0x2A, .name R.spnl none]⟩,
  /- syntax.y:239 div -/ ⟨0, sequ [.chr 0x2F, .name R.spnl none]⟩,
  /- syntax.y:240 rem -/ ⟨0, sequ [.chr 0x25, .name R.spnl none]⟩,
  /- syntax.y:241 pow -/ ⟨0, sequ [.str [0x2A, 0x2A], .name R.spnl none]⟩,
  /- syntax.y:242 bitl -/ ⟨0, sequ [.str [0x3C, 0x3C], .name R.spnl none]⟩,
  /- syntax.y:243 bitr -/ ⟨0, sequ [.str [0x3E, 0x3E], .name R.spnl none]⟩,
  /- syntax.y:244 amp -/ ⟨0, sequ [.chr 0x26, .name R.spnl none]⟩,
  /- syntax.y:245 caret -/ ⟨0, sequ [.chr 0x5E, .name R.spnl none]⟩,
  /- syntax.y:246 pipe -/ ⟨0, sequ [.chr 0x7C, .name R.spnl none]⟩,
  /- syntax.y:247 lt -/ ⟨0, sequ [.chr 0x3C, .name R.spnl none]⟩,
  /- syntax.y:248 lte -/ ⟨0, sequ [.str [0x3C, 0x3D], .name R.spnl none]⟩,
  /- syntax.y:249 gt -/ ⟨0, sequ [.chr 0x3E, .name R.spnl none]⟩,
  /- syntax.y:250 gte -/ ⟨0, sequ [.str [0x3E, 0x3D], .name R.spnl none]⟩,
  /- syntax.y:251 neq -/ ⟨0, sequ [.str [0x21, 0x3D], .name R.spnl none]⟩,
  /- syntax.y:252 eq -/ ⟨0, sequ [.str [0x3D, 0x3D], .name R.spnl none]⟩,
  /- syntax.y:253 cmp -/ ⟨0, sequ [.str [0x3C, 0x3D, 0x3E], .name R.spnl none]⟩,
  /- syntax.y:254 and -/ ⟨0, sequ [choice [.str [0x26, 0x26], sequ [.str [0x61, 0x6E, 0x64], .not (.name R.utfw none)]], .name R.spnl none]⟩,
  /- syntax.y:255 or -/ ⟨0, sequ [choice [.str [0x7C, 0x7C], sequ [.str [0x6F, 0x72], .not (.name R.utfw none)]], .name R.spnl none]⟩,
  /- syntax.y:256 not -/ ⟨0, sequ [choice [.chr 0x21, sequ [.str [0x6E, 0x6F, 0x74], .not (.name R.utfw none)]], .name R.spnl none]⟩,
  /- syntax.y:257 keyword -/ ⟨0, sequ [choice [.str [0x61, 0x6E, 0x64], .str [0x6F, 0x72], .str [0x6E, 0x6F, 0x74]], .not (.name R.utfw none)]⟩,
  /- syntax.y:259 nil -/ ⟨0, sequ [.str [0x6E, 0x69, 0x6C], .not (.name R.utfw none)]⟩,
  /- syntax.y:260 true -/ ⟨0, sequ [.str [0x74, 0x72, 0x75, 0x65], .not (.name R.utfw none)]⟩,
  /- syntax.y:261 false -/ ⟨0, sequ [.str [0x66, 0x61, 0x6C, 0x73, 0x65], .not (.name R.utfw none)]⟩,
  /- syntax.y:262 hexl -/ ⟨0, .cls [0x30, 0x2D, 0x39, 0x41, 0x2D, 0x46, 0x61, 0x2D, 0x66]⟩,
  /- syntax.y:263 hex -/ ⟨0, sequ [.str [0x30, 0x78], .open, .plus (.name R.hexl none), .close]⟩,
  /- syntax.y:265 dec -/ ⟨0, sequ [.open, choice [.chr 0x30, sequ [.opt (.chr 0x2D), .cls [0x31, 0x2D, 0x39], .star (.cls [0x30, 0x2D, 0x39])]], .act 97, .opt (sequ [.chr 0x2E, .plus (.cls [0x30, 0x2D, 0x39]), .act 98]), .opt (sequ [.chr 0x65, .cls [0x2D, 0x2B], .plus (.cls [0x30, 0x2D, 0x39]), .act 99]), .close]⟩,
  /- syntax.y:269 q1 -/ ⟨0, .cls [0x27]⟩,
  /- syntax.y:270 c1 -/ ⟨0, sequ [.open, .plus (sequ [.not (.name R.q1 none), .name R.utf8 none]), .close, .act 100]⟩,
  /- syntax.y:271 str1 -/ ⟨0, sequ [.name R.q1 none, .act 101, .open, .star (choice [sequ [.name R.q1 none, .name R.q1 none, .act 102], .name R.c1 none]), .close, .name R.q1 none, .act 103]⟩,
  /- syntax.y:275 esc -/ ⟨0, .chr 0x5C⟩,
  /- syntax.y:276 escn -/ ⟨0, sequ [.name R.esc none, .chr 0x6E, .act 104]⟩,
  /- syntax.y:277 escb -/ ⟨0, sequ [.name R.esc none, .chr 0x62, .act 105]⟩,
  /- syntax.y:278 escf -/ ⟨0, sequ [.name R.esc none, .chr 0x66, .act 106]⟩,
  /- syntax.y:279 escr -/ ⟨0, sequ [.name R.esc none, .chr 0x72, .act 107]⟩,
  /- syntax.y:280 esct -/ ⟨0, sequ [.name R.esc none, .chr 0x74, .act 108]⟩,
  /- syntax.y:281 escu -/ ⟨0, sequ [.name R.esc none, .chr 0x75, .open, .name R.hexl none, .name R.hexl none, .name R.hexl none, .name R.hexl none, .close, .act 109]⟩,
  /- syntax.y:301 escU -/ ⟨0, sequ [.name R.esc none, .chr 0x55, .chr 0x7B, .open, .plus (.name R.hexl none), .close, .chr 0x7D, .act 110]⟩,
  /- syntax.y:328 escc -/ ⟨0, sequ [.name R.esc none, .open, .name R.utf8 none, .close, .act 111]⟩,
  /- syntax.y:330 q2 -/ ⟨0, .cls [0x22]⟩,
  /- syntax.y:331 e2 -/ ⟨0, sequ [.chr 0x5C, .cls [0x22], .act 112]⟩,
  /- syntax.y:332 c2 -/ ⟨0, sequ [.open, .plus (sequ [.not (.name R.q2 none), .not (.name R.esc none), .name R.utf8 none]), .close, .act 113]⟩,
  /- syntax.y:333 str2 -/ ⟨0, sequ [.name R.q2 none, .act 114, .open, .star (choice [.name R.e2 none, .name R.escn none, .name R.escb none, .name R.escf none, .name R.escr none, .name R.esct none, .name R.escu none, .name R.escU none, .name R.escc none, .name R.c2 none]), .close, .name R.q2 none, .act 115]⟩,
  /- syntax.y:337 unq-char -/ ⟨0, choice [sequ [.chr 0x7B, .plus (.name R.unq_char none), .chr 0x7D], sequ [.chr 0x5B, .plus (.name R.unq_char none), .chr 0x5D], sequ [.chr 0x28, .plus (.name R.unq_char none), .chr 0x29], sequ [.not (.chr 0x7B), .not (.chr 0x5B), .not (.chr 0x28), .not (.chr 0x7D), .not (.chr 0x5D), .not (.chr 0x29), .name R.utf8 none]]⟩,
  /- syntax.y:341 unq-sep -/ ⟨0, sequ [.name R.sep_ none, .not (.chr 0x7B), .not (.chr 0x5B), .not (.chr 0x28)]⟩,
  /- syntax.y:342 unquoted -/ ⟨0, sequ [.open, .plus (sequ [.not (.name R.unq_sep none), .not (.name R.lick_end none), .name R.unq_char none]), .close, .act 116]⟩,
  /- syntax.y:344 - -/ ⟨0, .star (choice [.name R.space_ none, .name R.comment_ none])⟩,
  /- syntax.y:345 -- -/ ⟨0, .star (choice [.name R.space_ none, .name R.comment_ none, .name R.end_of_line none])⟩,
  /- syntax.y:346 sep -/ ⟨0, sequ [choice [.name R.end_of_line none, .name R.comma none], .star (choice [.name R.space_ none, .name R.comment_ none, .name R.end_of_line none, .name R.comma none])]⟩,
  /- syntax.y:347 comment -/ ⟨0, sequ [.chr 0x23, .star (sequ [.not (.name R.end_of_line none), .name R.utf8 none])]⟩,
  /- syntax.y:348 space -/ ⟨0, choice [.chr 0x20, .chr 0x0C, .chr 0x0B, .chr 0x09]⟩,
  /- syntax.y:349 end-of-line -/ ⟨0, sequ [choice [.str [0x0D, 0x0A], .chr 0x0A, .chr 0x0D], .act 117]⟩,
  /- syntax.y:351 end-of-file -/ ⟨0, .not (.any)⟩,
  /- syntax.y:353 sig -/ ⟨0, sequ [.plus (.name R.args none), .name R.end_of_file none]⟩,
  /- syntax.y:354 args -/ ⟨0, sequ [.name R.arg_list none, .star (sequ [.name R.arg_sep none, .name R.arg_list none])]⟩,
  /- syntax.y:355 arg-list -/ ⟨0, choice [sequ [.name R.arg_set none, .opt (sequ [.name R.optional none, .name R.arg_set none])], sequ [.name R.optional none, .name R.arg_set none]]⟩,
  /- syntax.y:357 arg-set -/ ⟨0, sequ [.name R.arg none, .star (sequ [.name R.comma none, .name R.sp none, .name R.arg none])]⟩,
  /- syntax.y:359 arg-name -/ ⟨0, sequ [.open, .name R.utff none, .star (.name R.utfw none), .close, .name R.sp none, .act 118]⟩,
  /- syntax.y:361 arg-modifier -/ ⟨0, sequ [.open, choice [.chr 0x2D, .chr 0x5C, .chr 0x2A], .close, .act 119]⟩,
  /- syntax.y:363 arg-type -/ ⟨0, sequ [.open, .cls [0x4E, 0x42, 0x49, 0x44, 0x53, 0x26, 0x6F, 0x54, 0x61, 0x75, 0x62, 0x6E, 0x73, 0x46, 0x50, 0x6C, 0x6B, 0x66, 0x74, 0x78, 0x72, 0x63, 0x64, 0x6D], .close, .name R.sp none, .act 120]⟩,
  /- syntax.y:364 arg -/ ⟨4, choice [sequ [.name R.arg_modifier (some 3), .name R.arg_name (some 2), .name R.assign none, .name R.arg_type (some 1), .act 121], sequ [.name R.arg_modifier (some 3), .name R.arg_name (some 2), .act 122], sequ [.name R.arg_name (some 2), .name R.assign none, .name R.arg_type (some 1), .act 123], sequ [.name R.arg_name (some 2), .name R.defassign none, .name R.value_ (some 0), .act 124], sequ [.name R.arg_name (some 2), .act 125], .name R.arg_rest none]⟩,
  /- syntax.y:376 optional -/ ⟨0, sequ [.chr 0x7C, .name R.sp none, .act 126]⟩,
  /- syntax.y:377 arg-rest -/ ⟨0, sequ [.str [0x2E, 0x2E, 0x2E], .name R.sp none, .act 127]⟩,
  /- syntax.y:378 arg-sep -/ ⟨0, sequ [.chr 0x2E, .name R.sp none, .act 128]⟩]

/-- Number of rules, of actions. -/
def potionRules : Nat := 113
def potionActs : Nat := 129

end Potion.Greg
