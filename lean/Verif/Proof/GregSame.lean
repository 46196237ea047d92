import Verif.Proof.GregPeg2
namespace Potion.Greg
open Potion.Peg (PExp NT Tree Kind)

/-! Expressions of potion's grammar and parsing expressions that match the same. -/

structure Same (e : Exp) (q : PExp) : Prop where
  ok : ∀ {P : Nat → List Byte → Bool} {inp : List Byte} {r pos m res}, Eval potionGrammar P inp r e pos m res → Rec ρ0 (normP q) (inp.drop pos) (res.rest inp)

section
variable {e a b : Exp} {l : Exps} {q p p' : PExp} {r : Nat} {v : Option Nat}

theorem Same.norm (f : Nat) (h : normE (normR potionGrammar f) e = some (normP q)) : Same e q := ⟨fun h' => eval_rec h' f _ h⟩

theorem Same.normN (f : Nat) (h : normR potionGrammar f r = some (normP q)) : Same (.name r v) q := .norm f (by rw [normE]; exact h)

theorem Same.nt {n} (h : ntOf r = some n) : Same (.name r v) (.nt n) := .norm 0 (by rw [normE, normR, h]; rfl)

theorem Same.name {ru : Rule} (hr : potionGrammar[r]? = some ru) (h : Same ru.body q) : Same (.name r v) q := by
  constructor
  intro P inp r' pos m res h'
  cases h' with
  | nameOk h1 h2 => rw [hr] at h1; cases h1; have := h.ok h2; exact this
  | nameFail h1 h2 => rw [hr] at h1; cases h1; have := h.ok h2; exact this

theorem Same.chr {c : Byte} {s : List Byte} (hs : s = [c]) : Same (.chr c) (.lit s) := by
  subst hs; exact .norm 0 rfl
theorem Same.str {s s' : List Byte} (hs : s' = s) : Same (.str s) (.lit s') := by
  subst hs; exact .norm 0 rfl
theorem Same.cls {t : List Byte} {bits} {f : Byte → Bool} (h : makeCharClass t = some bits) (hb : Bs.mk (fun b => bits b.toNat) = Bs.mk f) : Same (.cls t) (.chr f) :=
  .norm 0 (by rw [normE, h]; simp only [Option.map_some, hb, normP])
theorem Same.eps : Same (.seq .nil) .eps := .norm 0 rfl

theorem Same.seq (ha : Same a p) (hl : Same (.seq l) q) : Same (.seq (.cons a l)) (.seq p q) := by
  constructor
  intro P inp r' pos m res h
  refine seqN_ok ?_
  cases h with
  | seqFail h => exact .seqFail (ha.ok h)
  | seqOk h1 h2 => have := hl.ok h2; exact .seqOk (ha.ok h1) this
  | seqFail2 h1 h2 => exact .seqOk (ha.ok h1) (hl.ok h2)

theorem Same.seq2 (ha : Same a p) (hb : Same b p') (hl : Same (.seq l) q) : Same (.seq (.cons a (.cons b l))) (.seq (.seq p p') q) := by
  constructor
  intro P inp r' pos m res h
  refine seqN_ok ?_
  cases h with
  | seqFail h => exact .seqFail (seqN_ok (.seqFail (ha.ok h)))
  | seqOk h1 h2 =>
    cases h2 with
    | seqOk h2 h3 => have := hl.ok h3; exact .seqOk (seqN_ok (.seqOk (ha.ok h1) (hb.ok h2))) this
  | seqFail2 h1 h2 =>
    cases h2 with
    | seqFail h2 => exact .seqFail (seqN_ok (.seqOk (ha.ok h1) (hb.ok h2)))
    | seqFail2 h2 h3 => exact .seqOk (seqN_ok (.seqOk (ha.ok h1) (hb.ok h2))) (hl.ok h3)

/-- The last that matches anything. -/
theorem Same.last (ha : Same a p) (hl : Same (.seq l) .eps) : Same (.seq (.cons a l)) p := by
  constructor
  intro P inp r' pos m res h
  cases h with
  | seqFail h => exact ha.ok h
  | seqOk h1 h2 =>
    have h3 := hl.ok h2
    generalize hx : Res.rest inp _ = x at h3
    cases h3
    have h4 := ha.ok h1
    rw [Res.rest] at h4 hx ⊢
    rw [← hx] at h4
    exact h4
  | seqFail2 h1 h2 => cases hl.ok h2

theorem Same.act {k} (hl : Same (.seq l) q) : Same (.seq (.cons (.act k) l)) q := by
  constructor
  intro P inp r' pos m res h
  cases h with
  | seqFail h => cases h
  | seqOk h1 h2 => cases h1; have := hl.ok h2; exact this
  | seqFail2 h1 h2 => cases h1; have := hl.ok h2; exact this
theorem Same.op (hl : Same (.seq l) q) : Same (.seq (.cons .open l)) q := by
  constructor
  intro P inp r' pos m res h
  cases h with
  | seqFail h => cases h
  | seqOk h1 h2 => cases h1; have := hl.ok h2; exact this
  | seqFail2 h1 h2 => cases h1; have := hl.ok h2; exact this
theorem Same.cl (hl : Same (.seq l) q) : Same (.seq (.cons .close l)) q := by
  constructor
  intro P inp r' pos m res h
  cases h with
  | seqFail h => cases h
  | seqOk h1 h2 => cases h1; have := hl.ok h2; exact this
  | seqFail2 h1 h2 => cases h1; have := hl.ok h2; exact this

theorem Same.alt (ha : Same a p) (hl : Same (.alt (.cons b l)) q) : Same (.alt (.cons a (.cons b l))) (.alt p q) := by
  constructor
  intro P inp r' pos m res h
  refine altN_ok ?_
  cases h with
  | altOk h => exact .altOk (ha.ok h)
  | altNext h1 h2 => exact .altNext (ha.ok h1) (hl.ok h2)
theorem Same.alt1 (ha : Same a p) : Same (.alt (.cons a .nil)) p := by
  constructor
  intro P inp r' pos m res h
  cases h with
  | altOk h => exact ha.ok h
  | altFail h1 => exact ha.ok h1

theorem Same.choice : ∀ {ps : List (Exp × PExp)}, ps ≠ [] → (∀ x ∈ ps, Same x.1 x.2) → Same (choice (ps.map (·.1))) (Peg.alts (ps.map (·.2)))
  | [], h, _ => absurd rfl h
  | [x], _, h => .alt1 (h x (by simp))
  | x :: x' :: ps, _, h => .alt (h x (by simp)) (Same.choice (ps := x' :: ps) (by simp) fun z hz => h z (by simp only [List.mem_cons]; exact .inr (by simpa using hz)))

theorem Same.opt (h : Same e q) : Same (.opt e) (.alt q .eps) := by
  constructor
  intro P inp r' pos m res h'
  refine altN_ok ?_
  cases h' with
  | optSome h1 => have := h.ok h1; exact .altOk this
  | optNone h1 => exact .altNext (h.ok h1) .eps
theorem Same.not (h : Same e q) : Same (.not e) (.not q) := by
  constructor
  intro P inp r' pos m res h'
  cases h' with
  | notOk h1 => exact .notOk (h.ok h1)
  | notFail h1 => exact .notFail (h.ok h1)
theorem Same.star (h : Same e q) : Same (.star e) (.star q) := by
  constructor
  intro P inp r' pos m res h'
  generalize hE : Exp.star e = E at h'
  induction h' with
  | starEnd h1 => cases hE; exact .starEnd (h.ok h1)
  | starMore h1 h2 _ ih => cases hE; exact .starMore (h.ok h1) (ih rfl)
  | _ => cases hE
theorem Same.plus (h : Same e q) : Same (.plus e) (.seq q (.star q)) := by
  constructor
  intro P inp r' pos m res h'
  refine seqN_ok ?_
  cases h' with
  | plusFail h1 => exact .seqFail (h.ok h1)
  | plusOk h1 h2 => have := h.star.ok h2; exact .seqOk (h.ok h1) this

/-- Nothing else matters on the right. -/
theorem Same.to {q q' : PExp} (h : Same e q) (he : normP q' = normP q := by rfl) : Same e q' := by
  constructor; intro P inp r pos m res h'; rw [he]; exact h.ok h'
end

/-! ### Tokens -/

section
variable {v : Option Nat}
theorem S.eol : Same (.name R.end_of_line v) Peg.eol := .name rfl (.last (.alt (.str rfl) (.alt (.chr rfl) (.alt1 (.chr rfl)))) (.act .eps))
theorem S.space : Same (.name R.space_ v) Peg.space := .normN 1 (by decide +kernel)
theorem S.utf8 : Same (.name R.utf8 v) Peg.utf8 := .normN 2 (by decide +kernel)
theorem S.utfw : Same (.name R.utfw v) Peg.utfw := .normN 1 (by decide +kernel)
theorem S.utff : Same (.name R.utff v) Peg.utff := .normN 1 (by decide +kernel)
theorem S.hexl : Same (.name R.hexl v) Peg.hexl := .normN 1 (by decide +kernel)
theorem S.comma : Same (.name R.comma v) (Peg.tok ",") := .name rfl (.chr rfl)
theorem S.q1 : Same (.name R.q1 v) Peg.q1 := .normN 1 (by decide +kernel)
theorem S.q2 : Same (.name R.q2 v) Peg.q2 := .normN 1 (by decide +kernel)
theorem S.esc : Same (.name R.esc v) Peg.esc := .name rfl (.chr rfl)
theorem S.comment : Same (.name R.comment_ v) Peg.comment := .name rfl (.seq (.chr rfl) (.last (.star (.seq (.not S.eol) (.last S.utf8 .eps))) .eps))
theorem S.sp : Same (.name R.sp v) Peg.ws := .name rfl (.star (.alt S.space (.alt1 S.comment)))
theorem S.spnl : Same (.name R.spnl v) Peg.wsl := .name rfl (.star (.alt S.space (.alt S.comment (.alt1 S.eol))))
theorem S.sep : Same (.name R.sep_ v) Peg.sep := .name rfl (.seq (.alt S.eol (.alt1 S.comma)) (.last (.star (.alt S.space (.alt S.comment (.alt S.eol (.alt1 S.comma))))) .eps))

theorem S.c1 {r} {c : Byte} {s} (hr : potionGrammar[r]? = some ⟨0, sequ [.chr c, .name R.sp none]⟩) (hs : Peg.ascii s = [c]) : Same (.name r v) (Peg.t1 s) :=
  .name hr (.seq (.chr hs) (.last S.sp .eps))
theorem S.c2 {r} {c : Byte} {s} (hr : potionGrammar[r]? = some ⟨0, sequ [.chr c, .name R.spnl none]⟩) (hs : Peg.ascii s = [c]) : Same (.name r v) (Peg.t2 s) :=
  .name hr (.seq (.chr hs) (.last S.spnl .eps))
theorem S.s1 {r} {c : List Byte} {s} (hr : potionGrammar[r]? = some ⟨0, sequ [.str c, .name R.sp none]⟩) (hs : Peg.ascii s = c) : Same (.name r v) (Peg.t1 s) :=
  .name hr (.seq (.str hs) (.last S.sp .eps))
theorem S.s2 {r} {c : List Byte} {s} (hr : potionGrammar[r]? = some ⟨0, sequ [.str c, .name R.spnl none]⟩) (hs : Peg.ascii s = c) : Same (.name r v) (Peg.t2 s) :=
  .name hr (.seq (.str hs) (.last S.spnl .eps))

theorem S.blockStart : Same (.name R.block_start v) Peg.blockStart := S.c2 rfl rfl
theorem S.blockEnd : Same (.name R.block_end v) Peg.blockEnd := S.c1 rfl rfl
theorem S.listStart : Same (.name R.list_start v) Peg.listStart := S.c2 rfl rfl
theorem S.listEnd : Same (.name R.list_end v) Peg.listEnd := S.c1 rfl rfl
theorem S.lickStart : Same (.name R.lick_start v) Peg.lickStart := S.c2 rfl rfl
theorem S.lickEnd : Same (.name R.lick_end v) Peg.lickEnd := S.c1 rfl rfl
theorem S.groupStart : Same (.name R.group_start v) Peg.groupStart := S.c2 rfl rfl
theorem S.groupEnd : Same (.name R.group_end v) Peg.groupEnd := S.c1 rfl rfl
theorem S.quiz : Same (.name R.quiz v) Peg.quiz := S.c2 rfl rfl
theorem S.assign : Same (.name R.assign v) Peg.assign := S.c2 rfl rfl
theorem S.defassign : Same (.name R.defassign v) Peg.defassign := S.s2 rfl rfl
theorem S.pplus : Same (.name R.pplus v) Peg.pplus := S.s1 rfl rfl
theorem S.mminus : Same (.name R.mminus v) Peg.mminus := S.s1 rfl rfl
theorem S.minus : Same (.name R.minus v) Peg.minus := S.c2 rfl rfl
theorem S.plus : Same (.name R.plus v) Peg.plus := S.c2 rfl rfl
theorem S.wavy : Same (.name R.wavy v) Peg.wavy := S.c2 rfl rfl
theorem S.times : Same (.name R.times v) Peg.times := S.c2 rfl rfl
theorem S.div : Same (.name R.div_ v) Peg.div := S.c2 rfl rfl
theorem S.rem : Same (.name R.rem_ v) Peg.rem := S.c2 rfl rfl
theorem S.pow : Same (.name R.pow_ v) Peg.pow := S.s2 rfl rfl
theorem S.bitl : Same (.name R.bitl v) Peg.bitl := S.s2 rfl rfl
theorem S.bitr : Same (.name R.bitr v) Peg.bitr := S.s2 rfl rfl
theorem S.amp : Same (.name R.amp v) Peg.amp := S.c2 rfl rfl
theorem S.caret : Same (.name R.caret v) Peg.caret := S.c2 rfl rfl
theorem S.pipe : Same (.name R.pipe v) Peg.pipe := S.c2 rfl rfl
theorem S.lt : Same (.name R.lt_ v) Peg.lt := S.c2 rfl rfl
theorem S.lte : Same (.name R.lte v) Peg.lte := S.s2 rfl rfl
theorem S.gt : Same (.name R.gt_ v) Peg.gt := S.c2 rfl rfl
theorem S.gte : Same (.name R.gte v) Peg.gte := S.s2 rfl rfl
theorem S.neq : Same (.name R.neq v) Peg.neq := S.s2 rfl rfl
theorem S.eq : Same (.name R.eq_ v) Peg.eq := S.s2 rfl rfl
theorem S.cmp : Same (.name R.cmp v) Peg.cmp := S.s2 rfl rfl
theorem S.word {c : List Byte} {s : String} (hs : Peg.ascii s = c) : Same (sequ [.str c, .not (.name R.utfw none)]) (Peg.word s) :=
  .seq (.str hs) (.last (.not S.utfw) .eps)
theorem S.and : Same (.name R.and_ v) Peg.and := .name rfl (.seq (.alt (.str rfl) (.alt1 (S.word rfl))) (.last S.spnl .eps))
theorem S.or : Same (.name R.or_ v) Peg.or := .name rfl (.seq (.alt (.str rfl) (.alt1 (S.word rfl))) (.last S.spnl .eps))
theorem S.not : Same (.name R.not_ v) Peg.not := .name rfl (.seq (.alt (.chr rfl) (.alt1 (S.word rfl))) (.last S.spnl .eps))
theorem S.keyword : Same (.name R.keyword v) Peg.keyword := .name rfl (.seq (.alt (.str rfl) (.alt (.str rfl) (.alt1 (.str rfl)))) (.last (.not S.utfw) .eps))
theorem S.nil : Same (.name R.nil_ v) (Peg.word "nil") := .name rfl (S.word rfl)
theorem S.true : Same (.name R.true_ v) (Peg.word "true") := .name rfl (S.word rfl)
theorem S.false : Same (.name R.false_ v) (Peg.word "false") := .name rfl (S.word rfl)
theorem S.dec : Same (.name R.dec_ v) Peg.number := .normN 1 (by decide +kernel)
theorem S.decl {v} : Same (.name R.dec_ v) (.cap (.seq Peg.decInt (.seq (Peg.opt Peg.decFrac) (Peg.opt Peg.decExp)))) := .normN 1 (by decide +kernel)
end
end Potion.Greg
