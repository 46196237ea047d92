import Verif.Proof.GregActs10
import Verif.Model.PotionSig
import Verif.Spec.SigText
namespace Potion.Greg
open Potion.Peg (PExp NT Tree Kind)

/-! The parser and the actions on the rules of signatures. -/

/-! ### Rules without actions on the tuple or on strings -/

/-- The actions that change `P->source`, `P->pbuf`. -/
def loud (a : Nat) : Bool := a == 0 || a == 63 || a == 101 || a == 114 || 121 ≤ a

mutual
def Exp.mild (nm : Nat → Bool) : Exp → Bool
  | .name r _ => nm r
  | .act a => !loud a
  | .alt l => l.mild nm
  | .seq l => l.mild nm
  | .peek e => e.mild nm
  | .not e => e.mild nm
  | .opt e => e.mild nm
  | .star e => e.mild nm
  | .plus e => e.mild nm
  | .err e _ => e.mild nm
  | _ => true
def Exps.mild (nm : Nat → Bool) : Exps → Bool
  | .nil => true
  | .cons e l => e.mild nm && l.mild nm
end

/-- The rules without effect, names, types, modifiers, numbers. -/
def isMild (r : Nat) : Bool := isQuiet r || r == R.arg_name || r == R.arg_type || r == R.arg_modifier || r == R.hex || r == R.dec_ || r == R.nil_ || r == R.true_ || r == R.false_

theorem mild_rules : (List.range potionGrammar.length).all (fun r => !isMild r || match potionGrammar[r]? with
  | some ru => ru.body.mild isMild
  | none => true) = true := by decide +kernel

theorem mildly {r} {ru : Rule} (hr : potionGrammar[r]? = some ru) (hq : isMild r = true) : ru.body.mild isMild = true := by
  have h := mild_rules
  rw [List.all_eq_true] at h
  have := h r (List.mem_range.2 (List.getElem?_eq_some_iff.1 hr).1)
  simpa [hq, hr] using this

/-- No action among them. -/
def Tame (evs : List Ev) : Prop := ∀ r a b e, Ev.act r a b e ∈ evs → loud a = false

theorem Tame.nil : Tame [] := nofun
theorem Tame.app {a b} (h : Tame a) (h' : Tame b) : Tame (a ++ b) := fun r x y z hm => (List.mem_append.1 hm).elim (h r x y z) (h' r x y z)
theorem Tame.left {a b} (h : Tame (a ++ b)) : Tame a := fun r x y z hm => h r x y z (List.mem_append_left _ hm)
theorem Tame.cons {x l} (h : Tame (x :: l)) : Tame l := fun r a b e hm => h r a b e (List.mem_cons_of_mem _ hm)

section
variable {P : Nat → List Byte → Bool} {inp : List Byte}
local notation "Ev'" => Eval potionGrammar P inp

theorem mild_tame {r e pos m res} (h : Ev' r e pos m res) : e.mild isMild = true → ∀ p evs m', res = .ok p evs m' → Tame evs := by
  induction h with
  | act =>
    intro h p evs m' he; cases he
    intro r a b e hm
    rw [List.mem_singleton] at hm
    cases hm
    rw [Exp.mild] at h
    simpa using h
  | errOk _ ih => intro h; rw [Exp.mild] at h; exact ih h
  | altOk _ ih => intro h; rw [Exp.mild, Exps.mild, Bool.and_eq_true] at h; exact ih h.1
  | altNext _ _ ih ih' => intro h; rw [Exp.mild, Exps.mild, Bool.and_eq_true] at h; exact ih' (by rw [Exp.mild]; exact h.2)
  | seqOk _ _ ih ih' =>
    intro h p evs m' he; cases he
    rw [Exp.mild, Exps.mild, Bool.and_eq_true] at h
    exact (ih h.1 _ _ _ rfl).app (ih' (by rw [Exp.mild]; exact h.2) _ _ _ rfl)
  | optSome _ ih => intro h; rw [Exp.mild] at h; exact ih h
  | starMore _ _ ih ih' =>
    intro h p evs m' he; cases he
    have h0 := h
    rw [Exp.mild] at h
    exact (ih h _ _ _ rfl).app (ih' h0 _ _ _ rfl)
  | plusOk _ _ ih ih' =>
    intro h p evs m' he; cases he
    rw [Exp.mild] at h
    exact (ih h _ _ _ rfl).app (ih' (by rw [Exp.mild]; exact h) _ _ _ rfl)
  | @nameOk r r' ru v _ _ _ _ _ hr _ ih =>
    intro h p evs m' he; cases he
    rw [Exp.mild] at h
    have := ih (mildly hr h) _ _ _ rfl
    intro r a b e hm
    rw [List.cons_append, List.mem_cons, List.mem_append, List.mem_cons] at hm
    rcases hm with hm | hm | hm | hm
    · cases hm
    · exact this r a b e hm
    · cases hm
    · cases v with
      | none => cases hm
      | some v => rw [Option.map_some, Option.toList_some, List.mem_singleton] at hm; cases hm
  | _ => intro _ p evs m' he; cases he <;> exact Tame.nil

/-- They do the same with and without `P->pbuf`, -/
theorem tame_runs {evs s s'} (h : Runs sigAct inp evs s s') : Tame evs → Runs runAct inp evs s s' := by
  induction h with
  | nil => intro _; exact .nil
  | enter _ ih => intro ht; exact .enter (ih ht.cons)
  | leave _ ih => intro ht; exact .leave (ih ht.cons)
  | set _ ih => intro ht; exact .set (ih ht.cons)
  | @act r a b e t evs env envs y s' hx _ ih =>
    intro ht
    have ha := ht r a b e (List.mem_cons_self ..)
    have e1 : sigAct a t env y = runAct a t env y := by
      rw [sigAct, if_neg]
      rintro (rfl | rfl) <;> exact absurd ha (by decide)
    refine .act (t := t) hx ?_
    have := ih ht.cons
    rw [e1] at this
    exact this

theorem runAct_src : ∀ a, loud a = false → ∀ t env y, (runAct a t env y).2.2.source = y.2.source := by
  intro a ha t env y
  have hl : a < 121 := by
    simp only [loud, Bool.or_eq_false_iff, decide_eq_false_iff_not] at ha; omega
  unfold runAct
  split <;> first | rfl | (exact absurd ha (by decide)) | (rw [escWrite.eq_def]; split <;> rfl)

/-- and leave the tuple alone. -/
theorem tame_src {evs s s'} (h : Runs runAct inp evs s s') : Tame evs → s'.2.2.source = s.2.2.source := by
  induction h with
  | nil => intro _; rfl
  | enter _ ih => intro ht; exact ih ht.cons
  | leave _ ih => intro ht; exact ih ht.cons
  | set _ ih => intro ht; exact ih ht.cons
  | @act r a b e t evs env envs y s' hx _ ih =>
    intro ht
    rw [ih ht.cons]
    exact runAct_src a (ht r a b e (List.mem_cons_self ..)) t env y

theorem sruns_app {a b : List Ev} {s s'} (h : Runs sigAct inp (a ++ b) s s') : ∃ s1, Runs sigAct inp a s s1 ∧ Runs sigAct inp b s1 s' := by
  generalize hc : a ++ b = c at h
  induction h generalizing a with
  | nil =>
    obtain ⟨rfl, rfl⟩ := List.append_eq_nil_iff.1 hc
    exact ⟨_, .nil, .nil⟩
  | enter h ih =>
    cases a with
    | nil => cases hc; exact ⟨_, .nil, .enter h⟩
    | cons x a => cases hc; obtain ⟨s1, h1, h2⟩ := ih rfl; exact ⟨s1, .enter h1, h2⟩
  | leave h ih =>
    cases a with
    | nil => cases hc; exact ⟨_, .nil, .leave h⟩
    | cons x a => cases hc; obtain ⟨s1, h1, h2⟩ := ih rfl; exact ⟨s1, .leave h1, h2⟩
  | set h ih =>
    cases a with
    | nil => cases hc; exact ⟨_, .nil, .set h⟩
    | cons x a => cases hc; obtain ⟨s1, h1, h2⟩ := ih rfl; exact ⟨s1, .set h1, h2⟩
  | act ht h ih =>
    cases a with
    | nil => cases hc; exact ⟨_, .nil, .act ht h⟩
    | cons x a => cases hc; obtain ⟨s1, h1, h2⟩ := ih rfl; exact ⟨s1, .act ht h1, h2⟩

/-! ### Names, types, modifiers -/

section
variable {f : Nat}
theorem argName_ok : Rl P inp f R.arg_name Peg.argName := by
  intro ru pos m p evs m' t i env envs y s' hr hp h hR hx
  cases hr
  obtain ⟨_, i2, hR3, hR4⟩ := R.left hR
  obtain ⟨p2, ev2, hp2, rfl, rfl, h0, h, hx⟩ := seq_cap (es := [.name R.utff none, .star (.name R.utfw none)]) (rest := [.name R.sp none, .act 118]) hp h hx hR3 S.ident
  obtain ⟨p3, ev3, hp3, rfl, h, hx⟩ := seq_tok hp2 h hx hR4
  obtain ⟨ev4, txt, h, ht, hx⟩ := seq_act h hx
  obtain ⟨-, -, rfl⟩ := seq_end h hx
  cases ht h0
  exact ⟨_, _, rfl, .str, fun _ => rfl⟩

theorem cap_ne {q i j l} (h : R f (.cap q) i (some (.str l, j))) (hq : ∀ {t}, R f q i (some (t, j)) → j.length < i.length) : l ≠ [] := by
  obtain ⟨t1, h1, e⟩ := h.cap
  have := hq h1
  injection e with e
  rw [e]
  intro h0
  have := congrArg List.length h0
  rw [List.length_take, List.length_nil] at this
  omega

theorem R.chr_lt {q i t j} (h : R f (.chr q) i (some (t, j))) : j.length < i.length := by
  obtain ⟨f', _, h⟩ := h
  cases f' with
  | zero => cases h
  | succ f' =>
    cases i with
    | nil => rw [Peg.run] at h; cases h
    | cons c i =>
      rw [Peg.run] at h
      split at h
      · cases h; simp
      · cases h

theorem R.tok_lt {c : Byte} {l i t j} (h : R f (.lit (c :: l)) i (some (t, j))) : j.length < i.length := by
  obtain ⟨f', _, h⟩ := h
  cases f' with
  | zero => cases h
  | succ f' =>
    rw [Peg.run] at h
    cases e : Peg.matchLit (c :: l) i with
    | none => rw [e] at h; cases h
    | some r =>
      rw [e] at h
      cases h
      rw [Peg.matchLit_eq e]
      simp
      omega

theorem firstChar_fits : ∀ l, Fits (Peg.charNum (.str l)) (firstChar l) ∨ l = []
  | [] => .inr rfl
  | _ :: _ => .inl .imm

theorem argType_ok : Rl P inp f R.arg_type Peg.argType := by
  intro ru pos m p evs m' t i env envs y s' hr hp h hR hx
  cases hr
  obtain ⟨t1, hR1, rfl⟩ := R.act hR
  obtain ⟨_, i2, hR3, hR4⟩ := hR1.left
  obtain ⟨p2, ev2, hp2, rfl, rfl, h0, h, hx⟩ := seq_cap (es := [.cls [0x4E, 0x42, 0x49, 0x44, 0x53, 0x26, 0x6F, 0x54, 0x61, 0x75, 0x62, 0x6E, 0x73, 0x46, 0x50, 0x6C, 0x6B, 0x66, 0x74, 0x78, 0x72, 0x63, 0x64, 0x6D]])
    (rest := [.name R.sp none, .act 120]) hp h hx hR3 (.last S.argTypes .eps)
  obtain ⟨p3, ev3, hp3, rfl, h, hx⟩ := seq_tok hp2 h hx hR4
  obtain ⟨ev4, txt, h, ht, hx⟩ := seq_act h hx
  obtain ⟨-, -, rfl⟩ := seq_end h hx
  cases ht h0
  exact ⟨_, _, rfl, (firstChar_fits _).resolve_right (cap_ne hR3 fun h => h.chr_lt), fun _ => rfl⟩

theorem argModifier_ok : Rl P inp f R.arg_modifier Peg.argModifier := by
  intro ru pos m p evs m' t i env envs y s' hr hp h hR hx
  cases hr
  obtain ⟨t1, hR1, rfl⟩ := R.act hR
  obtain ⟨p2, ev2, hp2, rfl, rfl, h0, h, hx⟩ := seq_cap (es := [choice [.chr 0x2D, .chr 0x5C, .chr 0x2A]]) (rest := [.act 119]) hp h hx hR1 (.last (.alt (.chr rfl) (.alt (.chr rfl) (.alt1 (.chr rfl)))) .eps)
  obtain ⟨ev4, txt, h, ht, hx⟩ := seq_act h hx
  obtain ⟨-, -, rfl⟩ := seq_end h hx
  cases ht h0
  refine ⟨_, _, rfl, (firstChar_fits _).resolve_right (cap_ne hR1 fun h => ?_), fun _ => rfl⟩
  rcases h.alt with ⟨_, e, h⟩ | ⟨_, h⟩
  · cases e; exact R.tok_lt (c := 0x2D#8) h
  rcases h.alt with ⟨_, e, h⟩ | ⟨_, h⟩
  · cases e; exact R.tok_lt (c := 0x5C#8) h
  · exact R.tok_lt (c := 0x2A#8) h
end
end
end Potion.Greg
