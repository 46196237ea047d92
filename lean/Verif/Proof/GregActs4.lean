import Verif.Proof.GregActs3
namespace Potion.Greg
open Potion.Peg (PExp NT Tree Kind)

section
variable {P : Nat → List Byte → Bool} {inp : List Byte} {f : Nat}
local notation "Ev'" => Eval potionGrammar P inp
local notation "Run'" => Runs runAct inp
variable {r : Nat} {pos p : Nat} {m m' : Marks} {evs : List Ev} {env : Env} {envs : List Env} {y : Val} {s' : List Env × Val} {t : Tree} {i : List Byte}

/-! ### Assignment -/

/-- `tok s:b { e = ... }` -/
theorem pre_ok {tk b a v : Nat} {n : NT} {q : PExp} {W' : Tree → Tree} {W : Env → Tree} (H : Rl P inp f b (.nt n)) (hb : Same (.name b (some v)) (.nt n))
    (hk : (Exp.name tk none).quiet isQuiet = true ∧ Same (.name tk none) q) (ha : ∀ t env y, runAct a t env y = put 1 (W env) env y)
    (hp : pos ≤ inp.length) (h : Ev' r (sequ [.name tk none, .name b (some v), .act a]) pos m (.ok p evs m'))
    (hR : R f (.act W' (Peg.right q (.nt n))) (inp.drop pos) (some (t, i))) (hx : Run' evs (env :: envs, y) s') :
    ∃ x y1, t = W' x ∧ Ok x y y1 ∧ s' = ((put 1 (W (asg env (some v) y1)) (asg env (some v) y1) y1).1 :: envs, y1) := by
  obtain ⟨t0, hR0, rfl⟩ := hR.act
  obtain ⟨_, i1, hR1, hR2⟩ := hR0.right
  obtain ⟨p1, ev1, hp1, rfl, h, hx⟩ := seq_tok hp h hx hR1 hk.1 hk.2
  obtain ⟨p2, m2, ev2, y1, hp2, rfl, hy, h, hx⟩ := seq_name H hp1 h hx hR2 hb
  obtain ⟨ev4, txt, h, _, hx⟩ := seq_act h hx
  obtain ⟨-, -, rfl⟩ := seq_end h hx
  rw [ha]
  exact ⟨_, _, rfl, hy, rfl⟩

/-- `tok tok s:b { e = ... }` -/
theorem pre2_ok {e1 e2 : Exp} {b a v : Nat} {n : NT} {q q2 : PExp} {W' : Tree → Tree} {W : Env → Tree} (H : Rl P inp f b (.nt n)) (hb : Same (.name b (some v)) (.nt n))
    (hk : e1.quiet isQuiet = true ∧ Same e1 q) (hk2 : e2.quiet isQuiet = true ∧ Same e2 q2) (ha : ∀ t env y, runAct a t env y = put 1 (W env) env y)
    (hp : pos ≤ inp.length) (h : Ev' r (sequ [e1, e2, .name b (some v), .act a]) pos m (.ok p evs m'))
    (hR : R f (.act W' (Peg.right (.seq q q2) (.nt n))) (inp.drop pos) (some (t, i))) (hx : Run' evs (env :: envs, y) s') :
    ∃ x y1, t = W' x ∧ Ok x y y1 ∧ s' = ((put 1 (W (asg env (some v) y1)) (asg env (some v) y1) y1).1 :: envs, y1) := by
  obtain ⟨t0, hR0, rfl⟩ := hR.act
  obtain ⟨_, i1, hR1, hR2⟩ := hR0.right
  obtain ⟨_, i2, _, hR3, hR4, -⟩ := hR1.seq
  obtain ⟨p1, ev1, hp1, rfl, h, hx⟩ := seq_tok hp h hx hR3 hk.1 hk.2
  obtain ⟨p2, ev2, hp2, rfl, h, hx⟩ := seq_tok hp1 h hx hR4 hk2.1 hk2.2
  obtain ⟨p3, m3, ev3, y1, hp3, rfl, hy, h, hx⟩ := seq_name H hp2 h hx hR2 hb
  obtain ⟨ev4, txt, h, _, hx⟩ := seq_act h hx
  obtain ⟨-, -, rfl⟩ := seq_end h hx
  rw [ha]
  exact ⟨_, _, rfl, hy, rfl⟩

def asn (tk : Nat) (q : PExp) (a : Nat) (k : Kind) : Exp × PExp :=
  (sequ [.name tk none, .name R.assign none, .name R.sets (some 0), .act a], .act (fun s => .node k .nil s .nil) (Peg.right (.seq q Peg.assign) (.nt .sets)))

def setsAlts : List (Exp × PExp) := [
  (sequ [.name R.assign none, .name R.sets (some 0), .act 7], .act (fun s => .node .assign .nil s .nil) (Peg.right Peg.assign (.nt .sets))),
  (sequ [.name R.defassign none, .name R.value_ (some 0), .act 8], .act (fun s => .node .assign .nil s .nil) (Peg.right Peg.defassign (.nt .value))),
  asn R.or_ Peg.or 9 .or, asn R.and_ Peg.and 10 .and, asn R.pipe Peg.pipe 11 .pipe, asn R.caret Peg.caret 12 .caret, asn R.amp Peg.amp 13 .amp,
  asn R.bitl Peg.bitl 14 .bitl, asn R.bitr Peg.bitr 15 .bitr, asn R.plus Peg.plus 16 .plus, asn R.minus Peg.minus 17 .minus, asn R.times Peg.times 18 .times,
  asn R.div_ Peg.div 19 .div, asn R.rem_ Peg.rem 20 .rem, asn R.pow_ Peg.pow 21 .pow]

theorem asn_ok {tk q a k} (hk : k ≠ .assign) (H : All P inp f) (hq : (Exp.name tk none).quiet isQuiet = true ∧ Same (.name tk none) q)
    (ha : ∀ t env y, runAct a t env y = put 1 (ast2 .assign (env 1).1 (ast2 k (env 1).1 (env 0).1)) env y) {e : Tree} {y0 : Val}
    (he : Fits e (env 1).1 ∧ (Clean e → y.2.failed = y0.2.failed))
    (hp : pos ≤ inp.length) (h : Ev' r (asn tk q a k).1 pos m (.ok p evs m')) (hR : R f (asn tk q a k).2 (inp.drop pos) (some (t, i))) (hx : Run' evs (env :: envs, y) s') :
    ∃ env' y', s' = (env' :: envs, y') ∧ Fits (Peg.assigned (.pair e t)) (env' 1).1 ∧ (Clean (Peg.assigned (.pair e t)) → y'.2.failed = y0.2.failed) := by
  obtain ⟨x, y1, rfl, hy, rfl⟩ := pre2_ok (H R.sets .sets rfl (by decide)) (.nt rfl) hq ⟨by decide +kernel, S.assign⟩ (by intro t env y; rw [ha]) hp h hR hx
  refine ⟨_, _, rfl, ?_⟩
  have e1 : Peg.assigned (.pair e (.node k .nil x .nil)) = Peg.ast2 .assign e (Peg.ast2 k e x) := by
    cases k <;> first | rfl | exact absurd rfl hk
  rw [e1]
  refine ⟨?_, fun hc => ?_⟩
  · simp only [put, if_true]
    exact .ast2 he.1 (.ast2 he.1 hy.1)
  · rw [hy.2 hc.inv.2.1.inv.2.1, he.2 hc.inv.1]

theorem asn_same {tk q a k} (h : Same (.name tk none) q) : Same (asn tk q a k).1 (asn tk q a k).2 := Same.to (.seq2 h S.assign (.last (.nt rfl) (.act .eps)))

theorem setsAlts_same : ∀ x ∈ setsAlts, Same x.1 x.2 := by
  simp only [setsAlts, List.forall_mem_cons]
  refine ⟨Same.to (.seq S.assign (.last (.nt rfl) (.act .eps))), Same.to (.seq S.defassign (.last (.nt rfl) (.act .eps))), asn_same ?_, asn_same ?_, asn_same ?_, asn_same ?_,
    asn_same ?_, asn_same ?_, asn_same ?_, asn_same ?_, asn_same ?_, asn_same ?_, asn_same ?_, asn_same ?_, asn_same ?_, by simp⟩
  all_goals same

/-- What the alternatives of an assignment do, `e` being the left side. -/
def SetsDo (P : Nat → List Byte → Bool) (inp : List Byte) (f : Nat) (w : Exp × PExp) : Prop := ∀ {r pos m p evs m' t i env envs y s'} {e : Tree} {y0 : Val},
  Fits e (env 1).1 ∧ (Clean e → y.2.failed = y0.2.failed) → pos ≤ inp.length → Eval potionGrammar P inp r w.1 pos m (.ok p evs m') →
  R f w.2 (inp.drop pos) (some (t, i)) → Runs runAct inp evs (env :: envs, y) s' →
  ∃ env' y', s' = (env' :: envs, y') ∧ Fits (Peg.assigned (.pair e t)) (env' 1).1 ∧ (Clean (Peg.assigned (.pair e t)) → y'.2.failed = y0.2.failed)

theorem asn_do {tk q a k} (H : All P inp f) (hk : k ≠ .assign) (hq : (Exp.name tk none).quiet isQuiet = true ∧ Same (.name tk none) q)
    (ha : ∀ t env y, runAct a t env y = put 1 (ast2 .assign (env 1).1 (ast2 k (env 1).1 (env 0).1)) env y) : SetsDo P inp f (asn tk q a k) :=
  fun he hp h hR hx => asn_ok hk H hq ha he hp h hR hx

theorem sets_do1 {tk b a n q} (H : Rl P inp f b (.nt n)) (hb : Same (.name b (some 0)) (.nt n)) (hq : (Exp.name tk none).quiet isQuiet = true ∧ Same (.name tk none) q)
    (ha : ∀ t env y, runAct a t env y = put 1 (ast2 .assign (env 1).1 (env 0).1) env y) :
    SetsDo P inp f (sequ [.name tk none, .name b (some 0), .act a], .act (fun s => .node .assign .nil s .nil) (Peg.right q (.nt n))) := by
  intro r pos m p evs m' t i env envs y s' e y0 he hp h hR hx
  obtain ⟨x, y2, rfl, hy2, rfl⟩ := pre_ok H hb hq (W := fun env => ast2 .assign (env 1).1 (env 0).1) ha hp h hR hx
  exact ⟨_, _, rfl, .ast2 he.1 hy2.1, fun hc => by rw [hy2.2 hc.inv.2.1, he.2 hc.inv.1]⟩

theorem setsAlts_do (H : All P inp f) : ∀ w ∈ setsAlts, SetsDo P inp f w := by
  rw [setsAlts, List.forall_mem_cons, List.forall_mem_cons]
  refine ⟨sets_do1 (H R.sets .sets rfl (by decide)) (.nt rfl) ⟨by decide +kernel, by same⟩ (fun _ _ _ => rfl),
    sets_do1 (H R.value_ .value rfl (by decide)) (.nt rfl) ⟨by decide +kernel, by same⟩ (fun _ _ _ => rfl), ?_⟩
  simp only [List.forall_mem_cons]
  refine ⟨asn_do H ?_ ⟨?_, by same⟩ fun _ _ _ => rfl, asn_do H ?_ ⟨?_, by same⟩ fun _ _ _ => rfl, asn_do H ?_ ⟨?_, by same⟩ fun _ _ _ => rfl, asn_do H ?_ ⟨?_, by same⟩ fun _ _ _ => rfl, asn_do H ?_ ⟨?_, by same⟩ fun _ _ _ => rfl,
    asn_do H ?_ ⟨?_, by same⟩ fun _ _ _ => rfl, asn_do H ?_ ⟨?_, by same⟩ fun _ _ _ => rfl, asn_do H ?_ ⟨?_, by same⟩ fun _ _ _ => rfl, asn_do H ?_ ⟨?_, by same⟩ fun _ _ _ => rfl, asn_do H ?_ ⟨?_, by same⟩ fun _ _ _ => rfl,
    asn_do H ?_ ⟨?_, by same⟩ fun _ _ _ => rfl, asn_do H ?_ ⟨?_, by same⟩ fun _ _ _ => rfl, asn_do H ?_ ⟨?_, by same⟩ fun _ _ _ => rfl, by simp⟩
  all_goals decide +kernel

theorem sets_body : potionGrammar[R.sets]? = some ⟨2, sequ [.name R.eqs (some 1), .opt (choice (setsAlts.map (·.1))), .act 22]⟩ := rfl
theorem sets_rule : Peg.rule .sets = .act Peg.assigned (.seq (.nt .eqs) (.alt (Peg.alts (setsAlts.map (·.2))) .eps)) := rfl

theorem sets_ok (H : All P inp f) : Rl P inp f R.sets (Peg.rule .sets) := by
  intro ru pos m p evs m' t i env envs y s' hr hp h hR hx
  rw [sets_body] at hr
  cases hr
  rw [sets_rule] at hR
  obtain ⟨t0, hR0, rfl⟩ := hR.act
  obtain ⟨e, i1, tl, hR1, hR2, rfl⟩ := hR0.seq
  obtain ⟨p1, m2, ev1, y1, hp1, rfl, hy, h, hx⟩ := seq_name (H R.eqs .eqs rfl (by decide)) hp h hx hR1
  obtain ⟨p2, ev3, m3, ev4, h4, h5, rfl⟩ := seq_inv h
  obtain ⟨s1, hx1, hx2⟩ := runs_app hx
  have key : ∃ env' y', s1 = (env' :: envs, y') ∧ Fits (Peg.assigned (.pair e tl)) (env' 1).1 ∧ (Clean (Peg.assigned (.pair e tl)) → y'.2.failed = y.2.failed) := by
    have he : Fits e (asg env (some 1) y1 1).1 ∧ (Clean e → y1.2.failed = y.2.failed) := ⟨hy.1, hy.2⟩
    rcases opt_inv (.choice (by decide) setsAlts_same) h4 hR2 with ⟨h6, hR3⟩ | ⟨rfl, rfl, hR3⟩
    · obtain ⟨w, hw, m4, h7, hR4⟩ := alts_inv (ps := setsAlts) (by decide) setsAlts_same h6 hR3
      exact setsAlts_do H w hw he hp1 h7 hR4 hx1
    · cases hR3.eps
      cases hx1
      exact ⟨_, _, rfl, he⟩
  obtain ⟨env', y', rfl, hk⟩ := key
  obtain ⟨ev5, txt, h6, _, hx3⟩ := seq_act h5 hx2
  obtain ⟨-, -, rfl⟩ := seq_end h6 hx3
  exact ⟨_, _, rfl, hk⟩

/-! ### Operands -/

def exprAlts : List (Exp × PExp) := [
  (sequ [.name R.not_ none, .name R.expr (some 1), .act 49], .act (Peg.ast .not) (Peg.right Peg.not (.nt .expr))),
  (sequ [.name R.wavy none, .name R.expr (some 1), .act 50], .act (Peg.ast .wavy) (Peg.right Peg.wavy (.nt .expr))),
  (sequ [.name R.minus none, .not (.name R.minus none), .name R.atom (some 1), .act 51],
    .act (Peg.ast2 .minus (Peg.ast .value (.imm (pnNum 0)))) (Peg.right (.seq Peg.minus (.not Peg.minus)) (.nt .atom))),
  (sequ [.name R.plus none, .not (.name R.plus none), .name R.atom (some 1), .act 52],
    .act (Peg.ast2 .plus (Peg.ast .value (.imm (pnNum 0)))) (Peg.right (.seq Peg.plus (.not Peg.plus)) (.nt .atom))),
  (sequ [.name R.mminus none, .name R.atom (some 1), .act 53], .act (fun a => Peg.ast2 .inc a (.imm (pnNum (-1) ^^^ 1#64))) (Peg.right Peg.mminus (.nt .atom))),
  (sequ [.name R.pplus none, .name R.atom (some 1), .act 54], .act (fun a => Peg.ast2 .inc a (.imm (pnNum 1 ^^^ 1#64))) (Peg.right Peg.pplus (.nt .atom))),
  (sequ [.name R.atom (some 1), .opt (choice [sequ [.name R.pplus none, .act 55], sequ [.name R.mminus none, .act 56]])],
    .act (fun | .pair a (.imm w) => Peg.ast2 .inc a (.imm w) | .pair a _ => a | v => v)
        (.seq (.nt .atom) (Peg.opt (.alt (.act (fun _ => .imm (pnNum 1)) Peg.pplus) (.act (fun _ => .imm (pnNum (-1))) Peg.mminus)))))]


/-- What the alternatives of an operand do. -/
def ExprDo (P : Nat → List Byte → Bool) (inp : List Byte) (f : Nat) (w : Exp × PExp) : Prop := ∀ {r pos m p evs m' t i env envs y s'},
  pos ≤ inp.length → Eval potionGrammar P inp r w.1 pos m (.ok p evs m') → R f w.2 (inp.drop pos) (some (t, i)) → Runs runAct inp evs (env :: envs, y) s' →
  ∃ env' y', s' = (env' :: envs, y') ∧ Fits t (env' 1).1 ∧ (Clean t → y'.2.failed = y.2.failed)

theorem expr_do1 {tk b a n q} {W' W : Tree → Tree} (H : Rl P inp f b (.nt n)) (hb : Same (.name b (some 1)) (.nt n))
    (hq : (Exp.name tk none).quiet isQuiet = true ∧ Same (.name tk none) q)
    (ha : ∀ t env y, runAct a t env y = put 1 (W (env 1).1) env y) (hW : ∀ {x x'}, Fits x x' → Fits (W' x) (W x')) (hc : ∀ {x}, Clean (W' x) → Clean x) :
    ExprDo P inp f (sequ [.name tk none, .name b (some 1), .act a], .act W' (Peg.right q (.nt n))) := by
  intro r pos m p evs m' t i env envs y s' hp h hR hx
  obtain ⟨x, y2, rfl, hy2, rfl⟩ := pre_ok H hb hq (W := fun env => W (env 1).1) ha hp h hR hx
  exact ⟨_, _, rfl, hW hy2.1, fun h => hy2.2 (hc h)⟩

theorem expr_do2 {e1 e2 b a n q q2} {W' W : Tree → Tree} (H : Rl P inp f b (.nt n)) (hb : Same (.name b (some 1)) (.nt n))
    (hq : e1.quiet isQuiet = true ∧ Same e1 q) (hq2 : e2.quiet isQuiet = true ∧ Same e2 q2)
    (ha : ∀ t env y, runAct a t env y = put 1 (W (env 1).1) env y) (hW : ∀ {x x'}, Fits x x' → Fits (W' x) (W x')) (hc : ∀ {x}, Clean (W' x) → Clean x) :
    ExprDo P inp f (sequ [e1, e2, .name b (some 1), .act a], .act W' (Peg.right (.seq q q2) (.nt n))) := by
  intro r pos m p evs m' t i env envs y s' hp h hR hx
  obtain ⟨x, y2, rfl, hy2, rfl⟩ := pre2_ok H hb hq hq2 (W := fun env => W (env 1).1) ha hp h hR hx
  exact ⟨_, _, rfl, hW hy2.1, fun h => hy2.2 (hc h)⟩

/-- `++`, `--` after an operand -/
def incAlts : List (Exp × PExp) := [(sequ [.name R.pplus none, .act 55], .act (fun _ => .imm (pnNum 1)) Peg.pplus),
  (sequ [.name R.mminus none, .act 56], .act (fun _ => .imm (pnNum (-1))) Peg.mminus)]

theorem incAlts_same : ∀ x ∈ incAlts, Same x.1 x.2 := by
  simp only [incAlts, List.forall_mem_cons]
  exact ⟨Same.to (.last S.pplus (.act .eps)), Same.to (.last S.mminus (.act .eps)), by simp⟩

theorem exprAlts_same : ∀ x ∈ exprAlts, Same x.1 x.2 := by
  simp only [exprAlts, List.forall_mem_cons]
  exact ⟨Same.to (.seq S.not (.last (.nt rfl) (.act .eps))), Same.to (.seq S.wavy (.last (.nt rfl) (.act .eps))),
    Same.to (.seq2 S.minus (.not S.minus) (.last (.nt rfl) (.act .eps))), Same.to (.seq2 S.plus (.not S.plus) (.last (.nt rfl) (.act .eps))),
    Same.to (.seq S.mminus (.last (.nt rfl) (.act .eps))), Same.to (.seq S.pplus (.last (.nt rfl) (.act .eps))),
    Same.to (.seq (.nt rfl) (.last (.opt (.choice (ps := incAlts) (by decide) incAlts_same)) .eps)), by simp⟩

def IncDo (P : Nat → List Byte → Bool) (inp : List Byte) (f : Nat) (w : Exp × PExp) : Prop := ∀ {r pos m p evs m' t i env envs y s'},
  pos ≤ inp.length → Eval potionGrammar P inp r w.1 pos m (.ok p evs m') → R f w.2 (inp.drop pos) (some (t, i)) → Runs runAct inp evs (env :: envs, y) s' →
  ∃ v, t = .imm v ∧ s' = ((put 1 (ast2 .inc (env 1).1 (.imm v)) env y).1 :: envs, y)

theorem inc_do {tk a v q} (hq : (Exp.name tk none).quiet isQuiet = true ∧ Same (.name tk none) q) (ha : ∀ t env y, runAct a t env y = put 1 (ast2 .inc (env 1).1 (.imm v)) env y) :
    IncDo P inp f (sequ [.name tk none, .act a], .act (fun _ => .imm v) q) := by
  intro r pos m p evs m' t i env envs y s' hp h hR hx
  obtain ⟨t1, hR10, rfl⟩ := hR.act
  obtain ⟨p5, ev8, hp5, rfl, h13, hx6⟩ := seq_tok hp h hx hR10 hq.1 hq.2
  obtain ⟨ev9, txt, h14, _, hx7⟩ := seq_act h13 hx6
  obtain ⟨-, -, rfl⟩ := seq_end h14 hx7
  rw [ha]
  exact ⟨_, rfl, rfl⟩

theorem incAlts_do : ∀ w ∈ incAlts, IncDo P inp f w := by
  rw [incAlts, List.forall_mem_cons, List.forall_mem_cons]
  exact ⟨inc_do ⟨by decide +kernel, by same⟩ fun _ _ _ => rfl, inc_do ⟨by decide +kernel, by same⟩ fun _ _ _ => rfl, by simp⟩

theorem expr_do3 (H : All P inp f) : ExprDo P inp f (sequ [.name R.atom (some 1), .opt (choice (incAlts.map (·.1)))],
    .act (fun | .pair a (.imm w) => Peg.ast2 .inc a (.imm w) | .pair a _ => a | v => v) (.seq (.nt .atom) (.alt (Peg.alts (incAlts.map (·.2))) .eps))) := by
  intro r pos m p evs m' t i env envs y s' hp h hR hx
  obtain ⟨t0, hR5, rfl⟩ := hR.act
  obtain ⟨x, i3, tl2, hR6, hR7, rfl⟩ := hR5.seq
  obtain ⟨p3, m5, ev5, y2, hp3, rfl, hy2, h8, hx3⟩ := seq_name (H R.atom .atom rfl (by decide)) hp h hx hR6
  obtain ⟨p4, ev6, m6, ev7, h9, h10, rfl⟩ := seq_inv h8
  obtain ⟨s2, hx4, hx5⟩ := runs_app hx3
  obtain ⟨-, -, rfl⟩ := seq_end h10 hx5
  rcases opt_inv (.choice (by decide) incAlts_same) h9 hR7 with ⟨h11, hR8⟩ | ⟨rfl, rfl, hR8⟩
  · obtain ⟨w, hw, m7, h12, hR9⟩ := alts_inv (ps := incAlts) (by decide) incAlts_same h11 hR8
    obtain ⟨v, rfl, rfl⟩ := incAlts_do w hw hp3 h12 hR9 hx4
    exact ⟨_, _, rfl, .ast2 hy2.1 .imm, fun hc => hy2.2 hc.inv.1⟩
  · cases hR8.eps
    cases hx4
    exact ⟨_, _, rfl, hy2.1, hy2.2⟩

theorem exprAlts_do (H : All P inp f) : ∀ w ∈ exprAlts, ExprDo P inp f w := by
  rw [exprAlts]
  simp only [List.forall_mem_cons]
  refine ⟨expr_do1 (W := ast1 .not) (H R.expr .expr rfl (by decide)) (.nt rfl) ⟨?_, by same⟩ (fun _ _ _ => rfl) (fun h => .ast1 h) (fun h => h.inv.1),
    expr_do1 (W := ast1 .wavy) (H R.expr .expr rfl (by decide)) (.nt rfl) ⟨?_, by same⟩ (fun _ _ _ => rfl) (fun h => .ast1 h) (fun h => h.inv.1),
    expr_do2 (W := ast2 .minus (ast1 .value (.imm (pnNum 0)))) (H R.atom .atom rfl (by decide)) (.nt rfl) ⟨?_, by same⟩ ⟨?_, .not (by same)⟩ (fun _ _ _ => rfl) (fun h => .ast2 (.ast1 .imm) h) (fun h => h.inv.2.1),
    expr_do2 (W := ast2 .plus (ast1 .value (.imm (pnNum 0)))) (H R.atom .atom rfl (by decide)) (.nt rfl) ⟨?_, by same⟩ ⟨?_, .not (by same)⟩ (fun _ _ _ => rfl) (fun h => .ast2 (.ast1 .imm) h) (fun h => h.inv.2.1),
    expr_do1 (W := fun x => ast2 .inc x (.imm (pnNum (-1) ^^^ 1#64))) (H R.atom .atom rfl (by decide)) (.nt rfl) ⟨?_, by same⟩ (fun _ _ _ => rfl) (fun h => .ast2 h .imm) (fun h => h.inv.1),
    expr_do1 (W := fun x => ast2 .inc x (.imm (pnNum 1 ^^^ 1#64))) (H R.atom .atom rfl (by decide)) (.nt rfl) ⟨?_, by same⟩ (fun _ _ _ => rfl) (fun h => .ast2 h .imm) (fun h => h.inv.1),
    expr_do3 H, by simp⟩
  all_goals decide +kernel

theorem expr_body : potionGrammar[R.expr]? = some ⟨2, sequ [choice (exprAlts.map (·.1)), .act 57, .star (sequ [.name R.call_ (some 0), .act 58]), .act 59]⟩ := rfl
theorem expr_rule : Peg.rule .expr = .act (fun | .pair a (.tup l) => Peg.ast .expr (.tup (a :: l)) | v => v) (.seq (Peg.alts (exprAlts.map (·.2))) (.star (.nt .call))) := rfl

theorem expr_ok (H : All P inp f) : Rl P inp f R.expr (Peg.rule .expr) := by
  intro ru pos m p evs m' t i env envs y s' hr hp h hR hx
  rw [expr_body] at hr
  cases hr
  rw [expr_rule] at hR
  obtain ⟨t0, hR0, rfl⟩ := hR.act
  obtain ⟨a, i1, tl, hR1, hR2, rfl⟩ := hR0.seq
  obtain ⟨p2, ev3, m3, ev4, h4, h5, rfl⟩ := seq_inv h
  obtain ⟨s1, hx1, hx2⟩ := runs_app hx
  have key : ∃ env' y', s1 = (env' :: envs, y') ∧ Fits a (env' 1).1 ∧ (Clean a → y'.2.failed = y.2.failed) := by
    obtain ⟨w, hw, m4, h7, hR4⟩ := alts_inv (ps := exprAlts) (by decide) exprAlts_same h4 hR1
    exact exprAlts_do H w hw hp h7 hR4 hx1
  obtain ⟨env', y', rfl, hk⟩ := key
  obtain ⟨ev5, txt, h6, _, hx3⟩ := seq_act h5 hx2
  obtain ⟨p3, ev6, m6, ev7, h9, h10, rfl⟩ := seq_inv h6
  obtain ⟨s2, hx4, hx5⟩ := runs_app hx3
  have e1 := same_some (.choice (by decide) exprAlts_same) h4 hR1
  subst e1
  obtain ⟨l, env2, y2, rfl, rfl, rfl, hI⟩ := star_ind (lst := []) (e := sequ [.name R.call_ (some 0), .act 58]) (.last (.nt rfl) (.act .eps))
    (fun l env' y' => Fits (.tup (a :: l)) (env' 1).1 ∧ (Clean (.tup (a :: l)) → y'.2.failed = y.2.failed))
    (by
      intro pos m p evs m' t i env y' s' lst hp hI h hR hx
      obtain ⟨p2, m2, ev3, y1, hp2, rfl, hy1, h, hx⟩ := seq_name (H R.call_ .call rfl (by decide)) hp h hx hR
      obtain ⟨ev4, txt, h, _, hx⟩ := seq_act h hx
      obtain ⟨-, -, rfl⟩ := seq_end h hx
      refine ⟨_, _, rfl, ?_, fun hc => ?_⟩
      · obtain ⟨l', hl'⟩ := hI.1.tup_inv
        show Fits _ (push (env 1).1 y1.1)
        rw [hl', push]
        have := hI.1
        rw [hl'] at this
        exact this.push hy1.1
      · have hc' : Clean (.tup ((a :: lst) ++ [t])) := hc
        have := hc'.push
        show y1.2.failed = _
        rw [hy1.2 this.2, hI.2 this.1])
    ((moves h4).2 hp) h9 hR2 hx4 ⟨.tup hk.1 .tup0, fun hc => by cases hc with | tup hc _ => exact hk.2 hc⟩
  obtain ⟨ev8, txt, h11, _, hx6⟩ := seq_act h10 hx5
  obtain ⟨-, -, rfl⟩ := seq_end h11 hx6
  exact ⟨_, _, rfl, .ast1 hI.1, fun hc => hI.2 hc.inv.1⟩

def atomAlts : List (Exp × PExp) := [(.name R.value_ (some 0), .nt .value), (.name R.closure (some 0), .nt .closure), (.name R.list_ (some 0), .nt .list),
  (.name R.extern_ (some 0), .nt .extern), (.name R.call_ (some 0), .nt .call)]

theorem atom_ok (H : All P inp f) : Rl P inp f R.atom (Peg.rule .atom) := by
  intro ru pos m p evs m' t i env envs y s' hr hp h hR hx
  cases hr
  obtain ⟨w, hw, m4, h7, hR4⟩ := alts_inv (ps := atomAlts) (by decide)
    (by simp only [atomAlts, List.forall_mem_cons]; exact ⟨.nt rfl, .nt rfl, .nt rfl, .nt rfl, .nt rfl, by simp⟩) h hR
  simp only [atomAlts, List.mem_cons, List.not_mem_nil, or_false] at hw
  rcases hw with rfl | rfl | rfl | rfl | rfl <;>
  · obtain ⟨y1, hy, rfl⟩ := name_step (H _ _ rfl (by decide)) hp h7 hR4 hx
    exact ⟨_, _, rfl, hy⟩

end
end Potion.Greg
