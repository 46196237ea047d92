import Verif.Proof.GregActs9
import Verif.Spec.Syntax
namespace Potion.Greg
open Potion.Peg (PExp NT Tree Kind)

section
variable {P : Nat → List Byte → Bool} {inp : List Byte}

/-- Every rule computes its tree. -/
theorem all_ok : ∀ f, All P inp f := by
  intro f
  induction f using Nat.strongRecOn with
  | _ f ih =>
    intro r n hn hu
    refine Rl_nt fun f' hf => ?_
    have H := ih f' hf
    unfold ntOf at hn
    split at hn <;> cases hn
    · exact @statements_ok P inp f' H
    · exact @stmt_ok P inp f' H
    · exact @sets_ok P inp f' H
    · exact @eqs_ok P inp f' H
    · exact @cmps_ok P inp f' H
    · exact @bitors_ok P inp f' H
    · exact @bitand_ok P inp f' H
    · exact @bitshift_ok P inp f' H
    · exact @sum_ok P inp f' H
    · exact @product_ok P inp f' H
    · exact @power_ok P inp f' H
    · exact @expr_ok P inp f' H
    · exact @atom_ok P inp f' H
    · exact @call_ok P inp f' H
    · exact @extern_ok P inp f' H
    · exact @name_ok P inp f' H
    · exact @lickItems_ok P inp f' H
    · exact @lickItem_ok P inp f' H
    · exact @loose_ok P inp f' H
    · exact @closure_ok P inp f' H
    · exact @list_ok P inp f' H
    · exact @block_ok P inp f' H
    · exact @lick_ok P inp f' H
    · exact @group_ok P inp f' H
    · exact @tuple_ok P inp f' H
    · exact @value_ok P inp f' H
    · exact (hu rfl).elim

/-- The whole program: the actions leave its tree in `P->source`. -/
theorem potion_ok {ru : Rule} {p evs m m' f t i y y'} (hr : potionGrammar[R.potion]? = some ru) (h : Eval potionGrammar P inp R.potion ru.body 0 m (.ok p evs m'))
    (hR : Peg.run Peg.rule f Peg.program inp = some (some (t, i))) (hx : Runs runAct inp (.enter R.potion :: evs ++ [.leave R.potion]) ([], y) ([], y')) :
    ∃ s v, t = Peg.ast .code s ∧ y'.2.source = ast1 .code v ∧ Fits s v ∧ (Clean s → y'.2.failed = y.2.failed) := by
  cases hr
  have hR : R f Peg.program (inp.drop 0) (some (t, i)) := ⟨f, Nat.le_refl _, hR⟩
  obtain ⟨t0, hR0, rfl⟩ := R.act hR
  obtain ⟨_, i1, hR1, hR2⟩ := hR0.right
  obtain ⟨_, i2, hR3, hR4⟩ := hR2.left
  rw [List.cons_append] at hx
  cases hx with
  | enter hx =>
  obtain ⟨s1, hx1, hx2⟩ := runs_app hx
  obtain ⟨p1, ev1, hp1, rfl, h, hx1⟩ := seq_tok (Nat.zero_le _) h hx1 hR1
  obtain ⟨p2, m2, ev2, y1, hp2, rfl, hy, h, hx1⟩ := seq_name (all_ok f R.statements .statements rfl (by decide)) hp1 h hx1 hR3
  obtain ⟨p3, ev3, hp3, rfl, h, hx1⟩ := seq_tok hp2 h hx1 hR4 (by decide +kernel) (.norm 1 (by decide +kernel))
  obtain ⟨ev4, txt, h, _, hx1⟩ := seq_act h hx1
  obtain ⟨-, -, rfl⟩ := seq_end h hx1
  cases hx2 with
  | leave hx2 =>
  cases hx2
  exact ⟨t0, _, rfl, rfl, hy.1, hy.2⟩

end

/-! ### Trees of the language -/

/-- No stale variable, no refused escape, no `extern`. -/
inductive Exact : Tree → Prop
  | imm {w} : Exact (.imm w)
  | str {s} : Exact (.str s)
  | dbl {s} : Exact (.dbl s)
  | tup0 : Exact (.tup [])
  | tup {x l} : Exact x → Exact (.tup l) → Exact (.tup (x :: l))
  | node {k a b c} : Exact a → Exact b → Exact c → (∀ l, b ≠ .tup l) → Exact (.node k a b c)

theorem Exact.clean {t} (h : Exact t) : Clean t := by
  induction h with
  | imm => exact .imm
  | str => exact .str
  | dbl => exact .dbl
  | tup0 => exact .tup0
  | tup _ _ h1 h2 => exact .tup h1 h2
  | node _ _ _ h h1 h2 h3 => exact .node h1 h2 h3 fun _ _ => h _

theorem Exact.fits {t} (h : Exact t) : ∀ {v}, Fits t v → v = t := by
  induction h with
  | imm => intro v hv; cases hv; rfl
  | str => intro v hv; cases hv; rfl
  | dbl => intro v hv; cases hv; rfl
  | tup0 => intro v hv; cases hv; rfl
  | tup _ _ h1 h2 => intro v hv; cases hv with | tup a b => rw [h1 a]; cases h2 b; rfl
  | node _ _ _ h h1 h2 h3 =>
    intro v hv
    cases hv with
    | node a b c => rw [h1 a, h2 b, h3 c]
    | extern => exact absurd rfl (h _)

open Potion.Spec

theorem reads_exact {c s t} (h : Reads c s t) : Exact t ∧ (c = .stmts ∨ c = .calls ∨ ∀ l, t ≠ .tup l) := by
  have n1 : ∀ {k a}, Exact a → Exact (node1 k a) := fun h => .node h .imm .imm fun _ e => by cases e
  have n2 : ∀ {k a b}, Exact a → Exact b → (∀ l, b ≠ .tup l) → Exact (node2 k a b) := fun h h' hn => .node h h' .imm hn
  have nn : ∀ {k a b c}, ∀ l, Tree.node k a b c ≠ .tup l := fun _ e => by cases e
  have op : ∀ {a l}, Exact a → Exact (.tup l) → Exact (operand a l) := fun h h' => n1 (.tup h h')
  have get : ∀ {c t}, (Exact t ∧ (c = Cat.stmts ∨ c = .calls ∨ ∀ l, t ≠ .tup l)) → c ≠ Cat.stmts → c ≠ .calls → Exact t ∧ ∀ l, t ≠ .tup l :=
    fun h h1 h2 => ⟨h.1, by rcases h.2 with h | h | h; exacts [absurd h h1, absurd h h2, h]⟩
  have lt : ∀ {e : Nat} {l}, Tree.imm (pnNum e) ≠ .tup l := fun e => by cases e
  induction h with
  | int | hex | nil | true | false => exact ⟨n1 .imm, .inr (.inr nn)⟩
  | str => exact ⟨n1 .str, .inr (.inr nn)⟩
  | dbl => exact ⟨n1 .dbl, .inr (.inr nn)⟩
  | argLit _ ih => exact ⟨ih.1, .inr (.inr (get ih nofun nofun).2)⟩
  | argNeg => exact ⟨n1 .imm, .inr (.inr nn)⟩
  | argNegDbl => exact ⟨n1 .dbl, .inr (.inr nn)⟩
  | list0 | block0 => exact ⟨n1 .imm, .inr (.inr nn)⟩
  | list _ _ _ ih => exact ⟨n1 ih.1, .inr (.inr nn)⟩
  | block _ _ _ ih => exact ⟨n1 ih.1, .inr (.inr nn)⟩
  | noBlock => exact ⟨.imm, .inr (.inr nofun)⟩
  | someBlock _ _ ih => exact ⟨ih.1, .inr (.inr (get ih nofun nofun).2)⟩
  | call0 _ _ ih => exact ⟨.node .str .imm ih.1 nofun, .inr (.inr nn)⟩
  | callLit _ _ _ _ _ ih1 ih2 => exact ⟨.node .str ih1.1 ih2.1 (get ih1 nofun nofun).2, .inr (.inr nn)⟩
  | callList _ _ _ _ ih1 ih2 => exact ⟨.node .str ih1.1 ih2.1 (get ih1 nofun nofun).2, .inr (.inr nn)⟩
  | calls0 => exact ⟨.tup0, .inr (.inl rfl)⟩
  | calls _ _ _ _ ih1 ih2 => exact ⟨.tup ih1.1 ih2.1, .inr (.inl rfl)⟩
  | atomLit _ ih => exact ⟨ih.1, .inr (.inr (get ih nofun nofun).2)⟩
  | atomFn _ _ _ ih1 ih2 => exact ⟨n2 ih1.1 ih2.1 (get ih2 nofun nofun).2, .inr (.inr nn)⟩
  | atomList _ ih => exact ⟨ih.1, .inr (.inr (get ih nofun nofun).2)⟩
  | atomCall _ ih => exact ⟨ih.1, .inr (.inr (get ih nofun nofun).2)⟩
  | operand _ _ ih1 ih2 => exact ⟨op ih1.1 ih2.1, .inr (.inr nn)⟩
  | not _ _ _ _ ih => exact ⟨op (n1 ih.1) .tup0, .inr (.inr nn)⟩
  | bitnot _ _ ih => exact ⟨op (n1 ih.1) .tup0, .inr (.inr nn)⟩
  | neg _ _ _ ih1 ih2 => exact ⟨op (n2 (n1 .imm) ih1.1 (get ih1 nofun nofun).2) ih2.1, .inr (.inr nn)⟩
  | pos _ _ _ ih1 ih2 => exact ⟨op (n2 (n1 .imm) ih1.1 (get ih1 nofun nofun).2) ih2.1, .inr (.inr nn)⟩
  | preInc _ _ _ ih1 ih2 => exact ⟨op (n2 ih1.1 .imm nofun) ih2.1, .inr (.inr nn)⟩
  | preDec _ _ _ ih1 ih2 => exact ⟨op (n2 ih1.1 .imm nofun) ih2.1, .inr (.inr nn)⟩
  | postInc _ _ _ ih1 ih2 => exact ⟨op (n2 ih1.1 .imm nofun) ih2.1, .inr (.inr nn)⟩
  | postDec _ _ _ ih1 ih2 => exact ⟨op (n2 ih1.1 .imm nofun) ih2.1, .inr (.inr nn)⟩
  | up _ _ ih => exact ⟨ih.1, .inr (.inr (get ih nofun nofun).2)⟩
  | bin _ _ _ _ _ _ _ ih1 ih2 => exact ⟨n2 ih1.1 ih2.1 (get ih2 nofun nofun).2, .inr (.inr nn)⟩
  | assign _ _ _ _ ih1 ih2 => exact ⟨n2 ih1.1 ih2.1 (get ih2 nofun nofun).2, .inr (.inr nn)⟩
  | assignOp _ _ _ _ _ _ _ ih1 ih2 => exact ⟨n2 ih1.1 (n2 ih1.1 ih2.1 (get ih2 nofun nofun).2) nn, .inr (.inr nn)⟩
  | one _ ih => exact ⟨.tup ih.1 .tup0, .inl rfl⟩
  | oneSep _ _ _ ih => exact ⟨.tup ih.1 .tup0, .inl rfl⟩
  | more _ _ _ _ ih1 ih2 => exact ⟨.tup ih1.1 ih2.1, .inl rfl⟩

theorem program_exact {inp t} (h : IsProgram inp t) : ∃ s, t = node1 .code s ∧ Exact s := by
  cases h with
  | empty => exact ⟨_, rfl, .imm⟩
  | stmts _ h _ => exact ⟨_, rfl, (reads_exact h).1⟩

end Potion.Greg
