import Verif.Proof.GregActs7
namespace Potion.Greg
open Potion.Peg (PExp NT Tree Kind)

section
variable {P : Nat → List Byte → Bool} {inp : List Byte} {f : Nat}
local notation "Ev'" => Eval potionGrammar P inp
local notation "Run'" => Runs runAct inp

theorem str1_ok : Rl P inp f R.str1 Peg.str1 :=
  strRule_ok (qt := R.q1) (a1 := 101) (a2 := 103) (ps := str1Alts) (by decide) rfl rfl S.q1 (by decide +kernel) str1Alts_same str1Alts_wr (fun _ _ _ => rfl) (fun _ _ _ => rfl)
theorem str2_ok : Rl P inp f R.str2 Peg.str2 :=
  strRule_ok (qt := R.q2) (a1 := 114) (a2 := 115) (ps := str2Alts) (by decide) rfl rfl S.q2 (by decide +kernel) str2Alts_same str2Alts_wr (fun _ _ _ => rfl) (fun _ _ _ => rfl)

theorem S.str1 {v} : Same (.name R.str1 v) Peg.str1 := S.strRule (qt := R.q1) (a1 := 101) (a2 := 103) (ps := str1Alts) (by decide) rfl rfl S.q1 str1Alts_same
theorem S.str2 {v} : Same (.name R.str2 v) Peg.str2 := S.strRule (qt := R.q2) (a1 := 114) (a2 := 115) (ps := str2Alts) (by decide) rfl rfl S.q2 str2Alts_same

/-! ### Immediate values -/

theorem S.hexP {v} : Same (.name R.hex v) Peg.hex := .name rfl (Same.to (.seq (.str rfl) (.op (.last (.plus S.hexl) (.cl .eps)))))

def hexQ : PExp := .act (fun | .str s => .imm (Dec.hexLiteral s) | v => v) Peg.hex

theorem hex_dv : Dv P inp f (sequ [.name R.hex none, .act 95], hexQ) := by
  intro r pos m p evs m' t i env envs y s' hp h hR hx
  obtain ⟨t1, hR1, rfl⟩ := R.act hR
  obtain ⟨_, i1, hR2, hR3⟩ := R.right hR1
  obtain ⟨p1, ev1, m1, ev2, h1, h2, rfl⟩ := seq_inv h
  obtain ⟨s1, hx1, hx2⟩ := runs_app hx
  obtain ⟨ru, ev3, hr, h3, rfl⟩ := name_inv h1
  cases hr
  obtain ⟨y1, ⟨hm, ht, rfl⟩, rfl⟩ := run_name (K := fun y1 => (p1 ≠ 0 ∧ ∃ b, m1 = ⟨b, p1, m.errs⟩ ∧ t1 = .str (slice inp b p1)) ∧ i = inp.drop p1 ∧ y1 = y) hx1 (by
    intro env0 s1 hx3
    obtain ⟨p2, ev4, hp2, rfl, h, hx⟩ := seq_tok hp h3 hx3 hR2 rfl (.str rfl)
    obtain ⟨p3, ev5, hp3, rfl, rfl, h0, h, hx⟩ := seq_cap (es := [.plus (.name R.hexl none)]) (rest := []) hp2 h hx hR3 (.last (.plus S.hexl) .eps)
    obtain ⟨rfl, rfl, rfl⟩ := seq_end h hx
    exact ⟨_, _, rfl, ⟨h0, _, rfl, rfl⟩, rfl, rfl⟩)
  obtain ⟨h0, b, rfl, rfl⟩ := hm
  obtain ⟨ev4, txt, h, ht', hx⟩ := seq_act h2 hx2
  obtain ⟨-, -, rfl⟩ := seq_end h hx
  cases ht' h0
  exact ⟨_, _, rfl, .imm, fun _ => rfl⟩

theorem const_dv {a : Nat} {e : Exp} {q : PExp} {w : Tree} (hs : Same e q) (hq : e.quiet isQuiet = true) (hw : Fits w w) (ha : ∀ t env y, runAct a t env y = ret w env y) :
    Dv P inp f (sequ [e, .act a], .act (fun _ => w) q) := by
  intro r pos m p evs m' t i env envs y s' hp h hR hx
  obtain ⟨t1, hR1, rfl⟩ := R.act hR
  obtain ⟨p1, ev1, hp1, rfl, h, hx⟩ := seq_tok hp h hx hR1 hq hs
  obtain ⟨ev4, txt, h, ht', hx⟩ := seq_act h hx
  obtain ⟨-, -, rfl⟩ := seq_end h hx
  rw [ha]
  exact ⟨_, _, rfl, hw, fun _ => rfl⟩

def immedAlts : List (Exp × PExp) := [
  (sequ [.name R.nil_ none, .act 92], .act (fun _ => .nil) (Peg.word "nil")),
  (sequ [.name R.true_ none, .act 93], .act (fun _ => .imm PN_TRUE) (Peg.word "true")),
  (sequ [.name R.false_ none, .act 94], .act (fun _ => .imm PN_FALSE) (Peg.word "false")),
  (sequ [.name R.hex none, .act 95], hexQ),
  (sequ [.name R.dec_ none, .act 96], Peg.number),
  (.name R.str1 none, Peg.str1), (.name R.str2 none, Peg.str2)]

theorem immedAlts_same : ∀ x ∈ immedAlts, Same x.1 x.2 := by
  simp only [immedAlts, List.forall_mem_cons]
  exact ⟨Same.to (.last S.nil (.act .eps)), Same.to (.last S.true (.act .eps)), Same.to (.last S.false (.act .eps)), Same.to (.last S.hexP (.act .eps)),
    .last S.dec (.act .eps), S.str1, S.str2, by simp⟩

theorem S.immed {v} : Same (.name R.immed v) Peg.immed := .name rfl (.choice (ps := immedAlts) (by decide) immedAlts_same)

theorem immed_ok : Rl P inp f R.immed Peg.immed := by
  refine alts_ok immedAlts (by decide) rfl rfl immedAlts_same ?_
  simp only [immedAlts, List.forall_mem_cons]
  exact ⟨const_dv S.nil (by decide +kernel) .nil fun _ _ _ => rfl, const_dv S.true (by decide +kernel) .imm fun _ _ _ => rfl, const_dv S.false (by decide +kernel) .imm fun _ _ _ => rfl,
    hex_dv, number_dv, Dv.name str1_ok, Dv.name str2_ok, by simp⟩

def valueAlts : List (Exp × PExp) := [
  (sequ [.name R.immed (some 1), .name R.sp none, .act 90], .act (Peg.ast .value) (Peg.left Peg.immed Peg.ws)),
  (sequ [.name R.tuple (some 0), .name R.sp none, .act 91], .act (Peg.ast .value) (Peg.left (.nt .tuple) Peg.ws)),
  (.name R.lick none, .nt .lick), (.name R.group none, .nt .group)]

theorem valueAlts_same : ∀ x ∈ valueAlts, Same x.1 x.2 := by
  simp only [valueAlts, List.forall_mem_cons]
  exact ⟨Same.to (.seq S.immed (.last S.sp (.act .eps))), Same.to (.seq (.nt rfl) (.last S.sp (.act .eps))), .nt rfl, .nt rfl, by simp⟩

theorem value_ok (H : All P inp f) : Rl P inp f R.value_ (Peg.rule .value) := by
  refine alts_ok valueAlts (by decide) rfl rfl valueAlts_same ?_
  simp only [valueAlts, List.forall_mem_cons]
  exact ⟨dv2 immed_ok S.immed fun _ _ _ => rfl, dv2 (H R.tuple .tuple rfl (by decide)) (.nt rfl) fun _ _ _ => rfl,
    Dv.name (H R.lick .lick rfl (by decide)), Dv.name (H R.group .group rfl (by decide)), by simp⟩

end
end Potion.Greg
