import Verif.Model.PotionActs
import Verif.Proof.GregSame
import Verif.Proof.GregPotion
import Verif.Proof.GregTerm
namespace Potion.Greg
open Potion.Peg (PExp NT Tree Kind)

/-! The actions of the grammar compute the trees of Model/Syntax.lean: what both sides mean by the same expression. -/

/-! ### Trees -/

/-- `t` is `v`, except that nothing is said about: a variable no value was assigned to, a string with a refused escape, the arguments of `extern`. -/
inductive Fits : Tree → Tree → Prop
  | stale {v} : Fits .stale v
  | error {v} : Fits .error v
  | imm {w} : Fits (.imm w) (.imm w)
  | str {s} : Fits (.str s) (.str s)
  | dbl {s} : Fits (.dbl s) (.dbl s)
  | tup0 : Fits (.tup []) (.tup [])
  | tup {x l x' l'} : Fits x x' → Fits (.tup l) (.tup l') → Fits (.tup (x :: l)) (.tup (x' :: l'))
  | node {k a b c a' b' c'} : Fits a a' → Fits b b' → Fits c c' → Fits (.node k a b c) (.node k a' b' c')
  | extern {n n' l l'} : Fits n n' → Fits (.node .msg Peg.externName (.tup [n, l]) .nil) (.node .msg Peg.externName (.tup [n', l']) .nil)

/-- No refused escape; no arguments of `extern`. -/
inductive Clean : Tree → Prop
  | stale : Clean .stale
  | imm {w} : Clean (.imm w)
  | str {s} : Clean (.str s)
  | dbl {s} : Clean (.dbl s)
  | tup0 : Clean (.tup [])
  | tup {x l} : Clean x → Clean (.tup l) → Clean (.tup (x :: l))
  | node {k a b c} : Clean a → Clean b → Clean c → (∀ n l, b ≠ .tup [n, l]) → Clean (.node k a b c)

theorem Fits.nil : Fits .nil .nil := .imm
theorem Fits.ast1 {k a a'} (h : Fits a a') : Fits (Peg.ast k a) (ast1 k a') := .node h .nil .nil
theorem Fits.ast2 {k a a' b b'} (h : Fits a a') (h' : Fits b b') : Fits (Peg.ast2 k a b) (ast2 k a' b') := .node h h' .nil

theorem Fits.push : ∀ {l l' x x'}, Fits (.tup l) (.tup l') → Fits x x' → Fits (.tup (l ++ [x])) (.tup (l' ++ [x']))
  | [], [], _, _, _, h => .tup h .tup0
  | [], _ :: _, _, _, h, _ => by cases h
  | _ :: _, [], _, _, h, _ => by cases h
  | _ :: _, _ :: _, _, _, h, h' => by cases h with | tup h1 h2 => exact .tup h1 (Fits.push h2 h')

theorem Fits.tup_inv {l v} (h : Fits (.tup l) v) : ∃ l', v = .tup l' := by
  cases h with
  | tup0 => exact ⟨_, rfl⟩
  | tup => exact ⟨_, rfl⟩

theorem Clean.push : ∀ {l x}, Clean (.tup (l ++ [x])) → Clean (.tup l) ∧ Clean x
  | [], _, h => by cases h with | tup h _ => exact ⟨.tup0, h⟩
  | _ :: _, _, h => by cases h with | tup h1 h2 => exact ⟨.tup h1 (Clean.push h2).1, (Clean.push h2).2⟩

theorem Clean.inv {k a b c} (h : Clean (.node k a b c)) : Clean a ∧ Clean b ∧ Clean c := by
  cases h with | node h1 h2 h3 _ => exact ⟨h1, h2, h3⟩

/-! ### Parsing expressions -/

/-- At most `f` nested steps. -/
def R (f : Nat) (e : PExp) (i : List Byte) (x : Peg.Res) : Prop := ∃ f', f' ≤ f ∧ Peg.run Peg.rule f' e i = some x

section
variable {f : Nat} {i i2 : List Byte} {t : Tree}

theorem R.seq {a b} (h : R f (.seq a b) i (some (t, i2))) : ∃ t1 i1 t2, R f a i (some (t1, i1)) ∧ R f b i1 (some (t2, i2)) ∧ t = .pair t1 t2 := by
  obtain ⟨f', hf, h⟩ := h
  cases f' with
  | zero => cases h
  | succ f' =>
    rw [Peg.run] at h
    split at h
    · cases h
    · cases h
    · next h1 =>
      split at h
      · cases h
      · cases h
      · next h2 => cases h; exact ⟨_, _, _, ⟨_, by omega, h1⟩, ⟨_, by omega, h2⟩, rfl⟩

theorem R.alt {a b x} (h : R f (.alt a b) i x) : (∃ y, x = some y ∧ R f a i (some y)) ∨ (R f a i none ∧ R f b i x) := by
  obtain ⟨f', hf, h⟩ := h
  cases f' with
  | zero => cases h
  | succ f' =>
    rw [Peg.run] at h
    split at h
    · cases h
    · next h1 => exact .inr ⟨⟨_, by omega, h1⟩, ⟨_, by omega, h⟩⟩
    · next h1 => cases h; exact .inl ⟨_, rfl, _, by omega, h1⟩

theorem run_star_tup {a} : ∀ {f i t i2}, Peg.run Peg.rule f (.star a) i = some (some (t, i2)) → ∃ l, t = .tup l := by
  intro f i t i2 h
  cases f with
  | zero => cases h
  | succ f =>
    rw [Peg.run] at h
    split at h
    · cases h
    · cases h; exact ⟨_, rfl⟩
    · split at h <;> first | (cases h; done) | (cases h; exact ⟨_, rfl⟩)

theorem R.star {a} (h : R f (.star a) i (some (t, i2))) :
    (R f a i none ∧ t = .tup [] ∧ i2 = i) ∨ ∃ t1 i1 l, R f a i (some (t1, i1)) ∧ R f (.star a) i1 (some (.tup l, i2)) ∧ t = .tup (t1 :: l) := by
  obtain ⟨f', hf, h⟩ := h
  cases f' with
  | zero => cases h
  | succ f' =>
    rw [Peg.run] at h
    split at h
    · cases h
    · next h1 => cases h; exact .inl ⟨⟨_, by omega, h1⟩, rfl, rfl⟩
    · next h1 =>
      split at h
      · cases h
      · cases h
      · next h2 => cases h; exact .inr ⟨_, _, _, ⟨_, by omega, h1⟩, ⟨_, by omega, h2⟩, rfl⟩
      · next hne h2 =>
        obtain ⟨l, rfl⟩ := run_star_tup h2
        exact absurd rfl (hne l)

theorem R.act {g a} (h : R f (.act g a) i (some (t, i2))) : ∃ t1, R f a i (some (t1, i2)) ∧ t = g t1 := by
  obtain ⟨f', hf, h⟩ := h
  cases f' with
  | zero => cases h
  | succ f' =>
    rw [Peg.run] at h
    split at h
    · cases h
    · cases h
    · next h1 => cases h; exact ⟨_, ⟨_, by omega, h1⟩, rfl⟩

theorem R.cap {a} (h : R f (.cap a) i (some (t, i2))) : ∃ t1, R f a i (some (t1, i2)) ∧ t = .str (i.take (i.length - i2.length)) := by
  obtain ⟨f', hf, h⟩ := h
  cases f' with
  | zero => cases h
  | succ f' =>
    rw [Peg.run] at h
    split at h
    · cases h
    · cases h
    · next h1 => cases h; exact ⟨_, ⟨_, by omega, h1⟩, rfl⟩

theorem R.nt {n x} (h : R f (.nt n) i x) : ∃ f', f' < f ∧ R f' (Peg.rule n) i x := by
  obtain ⟨f', hf, h⟩ := h
  cases f' with
  | zero => cases h
  | succ f' => rw [Peg.run] at h; exact ⟨f', by omega, f', Nat.le_refl _, h⟩

theorem R.eps {x} (h : R f .eps i x) : x = some (.none, i) := by
  obtain ⟨f', hf, h⟩ := h
  cases f' with
  | zero => cases h
  | succ f' => rw [Peg.run] at h; cases h; rfl

theorem R.not {a} (h : R f (.not a) i (some (t, i2))) : R f a i none ∧ t = .none ∧ i2 = i := by
  obtain ⟨f', hf, h⟩ := h
  cases f' with
  | zero => cases h
  | succ f' =>
    rw [Peg.run] at h
    split at h
    · cases h
    · next h1 => cases h; exact ⟨⟨_, by omega, h1⟩, rfl, rfl⟩
    · cases h

theorem R.right {a b} (h : R f (Peg.right a b) i (some (t, i2))) : ∃ t1 i1, R f a i (some (t1, i1)) ∧ R f b i1 (some (t, i2)) := by
  obtain ⟨t1, h', rfl⟩ := R.act h
  obtain ⟨t1, i1, t2, h1, h2, rfl⟩ := h'.seq
  exact ⟨_, _, h1, h2⟩

theorem R.left {a b} (h : R f (Peg.left a b) i (some (t, i2))) : ∃ t2 i1, R f a i (some (t, i1)) ∧ R f b i1 (some (t2, i2)) := by
  obtain ⟨t1, h', rfl⟩ := R.act h
  obtain ⟨t1, i1, t2, h1, h2, rfl⟩ := h'.seq
  exact ⟨_, _, h1, h2⟩

theorem R.opt {a x} (h : R f (Peg.opt a) i x) : (∃ y, x = some y ∧ R f a i (some y)) ∨ (R f a i none ∧ x = some (.none, i)) := by
  rcases h.alt with h | ⟨h1, h2⟩
  · exact .inl h
  · exact .inr ⟨h1, h2.eps⟩

/-- A sound reading of the fuel-bounded runs. -/
theorem R.rec {q x} (h : R f q i x) : Rec ρ0 (normP q) i (x.map (·.2)) := by
  obtain ⟨f', _, h⟩ := h
  exact run_ok (fun _ => rfl) h
end

/-! ### Both -/

section
variable {P : Nat → List Byte → Bool} {inp : List Byte}

local notation "gr" => potionGrammar
local notation "Ev'" => Eval potionGrammar P inp

variable {r : Nat} {e : Exp} {l : Exps} {q : PExp} {pos p : Nat} {m m' : Marks} {evs : List Ev} {f : Nat} {env : Env} {envs : List Env} {y : Val} {s s' : List Env × Val}

theorem same_ok (hs : Same e q) {x res} (h : Ev' r e pos m res) (hr : R f q (inp.drop pos) x) : x.map (·.2) = res.rest inp :=
  hr.rec.det (hs.ok h)

theorem same_some (hs : Same e q) {t i} (h : Ev' r e pos m (.ok p evs m')) (hr : R f q (inp.drop pos) (some (t, i))) : i = inp.drop p := by
  have := same_ok hs h hr
  simpa [Res.rest] using this

theorem same_not1 (hs : Same e q) {t i} (h : Ev' r e pos m (.fail m')) (hr : R f q (inp.drop pos) (some (t, i))) : False := by
  have := same_ok hs h hr
  simp [Res.rest] at this

theorem same_not2 (hs : Same e q) (h : Ev' r e pos m (.ok p evs m')) (hr : R f q (inp.drop pos) none) : False := by
  have := same_ok hs h hr
  simp [Res.rest] at this

theorem moves (h : Ev' r e pos m (.ok p evs m')) : pos ≤ p ∧ (pos ≤ inp.length → p ≤ inp.length) := by
  have := eval_moves (chkAll_ends potion_chk).hnul h _ _ _ rfl
  exact ⟨this.1, this.2.2⟩

theorem moves1 (h : Ev' r e pos m (.ok p evs m')) (hn : e.null (nulOf potionNul) = false) : pos < p :=
  (eval_moves (chkAll_ends potion_chk).hnul h _ _ _ rfl).2.1 hn

/-! ### Running -/

theorem runs_app {a b : List Ev} (h : Runs runAct inp (a ++ b) s s') : ∃ s1, Runs runAct inp a s s1 ∧ Runs runAct inp b s1 s' := by
  generalize hc : a ++ b = c at h
  induction h generalizing a with
  | nil =>
    obtain ⟨rfl, rfl⟩ := List.append_eq_nil_iff.1 hc
    exact ⟨_, .nil, .nil⟩
  | enter h ih =>
    cases a with
    | nil => cases hc; exact ⟨_, .nil, .enter h⟩
    | cons x a => cases hc; obtain ⟨s1, h1, h2⟩ := ih rfl; exact ⟨s1, .enter h1, h2⟩
  | leave h ih =>
    cases a with
    | nil => cases hc; exact ⟨_, .nil, .leave h⟩
    | cons x a => cases hc; obtain ⟨s1, h1, h2⟩ := ih rfl; exact ⟨s1, .leave h1, h2⟩
  | set h ih =>
    cases a with
    | nil => cases hc; exact ⟨_, .nil, .set h⟩
    | cons x a => cases hc; obtain ⟨s1, h1, h2⟩ := ih rfl; exact ⟨s1, .set h1, h2⟩
  | act ht h ih =>
    cases a with
    | nil => cases hc; exact ⟨_, .nil, .act ht h⟩
    | cons x a => cases hc; obtain ⟨s1, h1, h2⟩ := ih rfl; exact ⟨s1, .act ht h1, h2⟩

/-- Running what an expression calls for changes the variables of its rule only. -/
theorem shape {res} (h : Ev' r e pos m res) : ∀ p evs m', res = .ok p evs m' → ∀ env envs y s', Runs runAct inp evs (env :: envs, y) s' →
    ∃ env' y', s' = (env' :: envs, y') := by
  have nil : ∀ env envs y s', Runs runAct inp [] (env :: envs, y) s' → ∃ env' y', s' = (env' :: envs, y') := by
    intro env envs y s' h; cases h; exact ⟨_, _, rfl⟩
  have app : ∀ {a b : List Ev}, (∀ env envs y s', Runs runAct inp a (env :: envs, y) s' → ∃ env' y', s' = (env' :: envs, y')) →
      (∀ env envs y s', Runs runAct inp b (env :: envs, y) s' → ∃ env' y', s' = (env' :: envs, y')) →
      ∀ env envs y s', Runs runAct inp (a ++ b) (env :: envs, y) s' → ∃ env' y', s' = (env' :: envs, y') := by
    intro a b ha hb env envs y s' h
    obtain ⟨s1, h1, h2⟩ := runs_app h
    obtain ⟨_, _, rfl⟩ := ha _ _ _ _ h1
    exact hb _ _ _ _ h2
  induction h with
  | act => intro p evs m' he; cases he; intro env envs y s' h; cases h with | act ht h => cases h; exact ⟨_, _, rfl⟩
  | errOk _ ih => exact ih
  | altOk _ ih => exact ih
  | altNext _ _ _ ih => exact ih
  | seqOk _ _ ih ih' => intro p evs m' he; cases he; exact app (ih _ _ _ rfl) (ih' _ _ _ rfl)
  | optSome _ ih => exact ih
  | starMore _ _ ih ih' => intro p evs m' he; cases he; exact app (ih _ _ _ rfl) (ih' _ _ _ rfl)
  | plusOk _ _ ih ih' => intro p evs m' he; cases he; exact app (ih _ _ _ rfl) (ih' _ _ _ rfl)
  | @nameOk r r' ru v pos m p1 ev1 m1 hr h ih =>
    intro p evs m' he
    cases he
    intro env envs y s' h
    rw [List.cons_append] at h
    cases h with
    | enter h =>
    obtain ⟨s1, h1, h2⟩ := runs_app h
    obtain ⟨_, _, rfl⟩ := ih _ _ _ rfl _ _ _ _ h1
    cases h2 with
    | leave h2 =>
    cases v with
    | none => cases h2; exact ⟨_, _, rfl⟩
    | some v => cases h2 with | set h2 => cases h2; exact ⟨_, _, rfl⟩
  | _ => intro p evs m' he; cases he <;> exact nil

/-! ### Expressions without effect -/

mutual
/-- No marks, no variables, no actions but counting lines; the rules called satisfy `nm`. -/
def Exp.quiet (nm : Nat → Bool) : Exp → Bool
  | .any => true
  | .chr _ => true
  | .str _ => true
  | .cls _ => true
  | .name r none => nm r
  | .act a => a == 117
  | .alt l => l.quiet nm
  | .seq l => l.quiet nm
  | .peek e => e.quiet nm
  | .not e => e.quiet nm
  | .opt e => e.quiet nm
  | .star e => e.quiet nm
  | .plus e => e.quiet nm
  | _ => false
def Exps.quiet (nm : Nat → Bool) : Exps → Bool
  | .nil => true
  | .cons e l => e.quiet nm && l.quiet nm
end

/-- The rules without effect. -/
def quietRules : List Nat := (List.range 113).filter fun r => (30 ≤ r && r ≤ 73) || r == 76 || r == 79 || r == 88 || (92 ≤ r && r ≤ 93) || (95 ≤ r && r ≤ 101)

def isQuiet (r : Nat) : Bool := quietRules.contains r

theorem quiet_rules : (List.range potionGrammar.length).all (fun r => !isQuiet r || match potionGrammar[r]? with
  | some ru => ru.body.quiet isQuiet
  | none => true) = true := by decide +kernel

theorem quietly {ru : Rule} (hr : potionGrammar[r]? = some ru) (hq : isQuiet r = true) : ru.body.quiet isQuiet = true := by
  have h := quiet_rules
  rw [List.all_eq_true] at h
  have := h r (List.mem_range.2 (List.getElem?_eq_some_iff.1 hr).1)
  simpa [hq, hr] using this

/-- They leave the marks alone. -/
theorem quiet_marks {res} (h : Ev' r e pos m res) : e.quiet isQuiet = true → (∀ p evs m', res = .ok p evs m' → m' = m) ∧ (∀ m', res = .fail m' → m' = m) := by
  induction h with
  | errOk | errFail => intro h; cases h
  | «open» | close => intro h; cases h
  | altOk _ ih => intro h; rw [Exp.quiet, Exps.quiet, Bool.and_eq_true] at h; exact ih h.1
  | altFail _ ih => intro h; rw [Exp.quiet, Exps.quiet, Bool.and_eq_true] at h; exact ih h.1
  | altNext _ _ ih ih' =>
    intro h
    have h0 := h
    rw [Exp.quiet, Exps.quiet, Bool.and_eq_true] at h
    have e := (ih h.1).2 _ rfl
    subst e
    exact ih' (by rw [Exp.quiet]; exact h.2)
  | seqFail _ ih => intro h; rw [Exp.quiet, Exps.quiet, Bool.and_eq_true] at h; exact ih h.1
  | seqOk _ _ ih ih' =>
    intro h
    rw [Exp.quiet, Exps.quiet, Bool.and_eq_true] at h
    have e1 := (ih h.1).1 _ _ _ rfl
    have e2 := (ih' (by rw [Exp.quiet]; exact h.2)).1 _ _ _ rfl
    exact ⟨fun p evs m' he => (by cases he; rw [e2, e1]), fun m' he => (by cases he)⟩
  | seqFail2 _ _ ih ih' =>
    intro h
    rw [Exp.quiet, Exps.quiet, Bool.and_eq_true] at h
    have e1 := (ih h.1).1 _ _ _ rfl
    have e2 := (ih' (by rw [Exp.quiet]; exact h.2)).2 _ rfl
    exact ⟨fun p evs m' he => (by cases he), fun m' he => (by cases he; rw [e2, e1])⟩
  | peekOk _ ih => intro h; rw [Exp.quiet] at h; have := (ih h).1 _ _ _ rfl; exact ⟨fun p evs m' he => (by cases he; exact this), fun m' he => (by cases he)⟩
  | peekFail _ ih => intro h; rw [Exp.quiet] at h; exact ih h
  | notOk _ ih => intro h; rw [Exp.quiet] at h; have := (ih h).2 _ rfl; exact ⟨fun p evs m' he => (by cases he; exact this), fun m' he => (by cases he)⟩
  | notFail _ ih => intro h; rw [Exp.quiet] at h; have := (ih h).1 _ _ _ rfl; exact ⟨fun p evs m' he => (by cases he), fun m' he => (by cases he; exact this)⟩
  | optSome _ ih => intro h; rw [Exp.quiet] at h; exact ih h
  | optNone _ ih => intro h; rw [Exp.quiet] at h; have := (ih h).2 _ rfl; exact ⟨fun p evs m' he => (by cases he; exact this), fun m' he => (by cases he)⟩
  | starEnd _ ih => intro h; rw [Exp.quiet] at h; have := (ih h).2 _ rfl; exact ⟨fun p evs m' he => (by cases he; exact this), fun m' he => (by cases he)⟩
  | starMore _ _ ih ih' =>
    intro h
    have h0 := h
    rw [Exp.quiet] at h
    have e1 := (ih h).1 _ _ _ rfl
    have e2 := (ih' h0).1 _ _ _ rfl
    exact ⟨fun p evs m' he => (by cases he; rw [e2, e1]), fun m' he => (by cases he)⟩
  | plusFail _ ih => intro h; rw [Exp.quiet] at h; exact ih h
  | plusOk _ _ ih ih' =>
    intro h
    rw [Exp.quiet] at h
    have e1 := (ih h).1 _ _ _ rfl
    have e2 := (ih' (by rw [Exp.quiet]; exact h)).1 _ _ _ rfl
    exact ⟨fun p evs m' he => (by cases he; rw [e2, e1]), fun m' he => (by cases he)⟩
  | @nameOk r r' ru v _ _ _ _ _ hr _ ih =>
    intro h
    cases v with
    | some v => cases h
    | none =>
      have := (ih (quietly hr (by rw [Exp.quiet] at h; exact h))).1 _ _ _ rfl
      exact ⟨fun p evs m' he => (by cases he; exact this), fun m' he => (by cases he)⟩
  | @nameFail r r' ru v _ _ _ hr _ ih =>
    intro h
    cases v with
    | some v => cases h
    | none => exact ih (quietly hr (by rw [Exp.quiet] at h; exact h))
  | _ => intro _; exact ⟨fun p evs m' he => (by cases he <;> rfl), fun m' he => (by cases he <;> rfl)⟩

/-- They change nothing. -/
theorem quiet_runs {res} (h : Ev' r e pos m res) : e.quiet isQuiet = true → ∀ p evs m', res = .ok p evs m' → ∀ s s', Runs runAct inp evs s s' → s' = s := by
  have nil : ∀ s s' : List Env × Val, Runs runAct inp [] s s' → s' = s := by intro s s' h; cases h; rfl
  have app : ∀ {a b : List Ev}, (∀ s s', Runs runAct inp a s s' → s' = s) → (∀ s s', Runs runAct inp b s s' → s' = s) →
      ∀ s s', Runs runAct inp (a ++ b) s s' → s' = s := by
    intro a b ha hb s s' h
    obtain ⟨s1, h1, h2⟩ := runs_app h
    rw [hb _ _ h2, ha _ _ h1]
  induction h with
  | errOk | errFail => intro h; cases h
  | act =>
    intro h p evs m' he; cases he
    rw [Exp.quiet, beq_iff_eq] at h
    subst h
    intro s s' h
    cases h with | act ht h => cases h; rfl
  | altOk _ ih => intro h; rw [Exp.quiet, Exps.quiet, Bool.and_eq_true] at h; exact ih h.1
  | altNext _ _ ih ih' => intro h; rw [Exp.quiet, Exps.quiet, Bool.and_eq_true] at h; exact ih' (by rw [Exp.quiet]; exact h.2)
  | seqOk _ _ ih ih' =>
    intro h p evs m' he; cases he
    rw [Exp.quiet, Exps.quiet, Bool.and_eq_true] at h
    exact app (ih h.1 _ _ _ rfl) (ih' (by rw [Exp.quiet]; exact h.2) _ _ _ rfl)
  | optSome _ ih => intro h; rw [Exp.quiet] at h; exact ih h
  | starMore _ _ ih ih' =>
    intro h p evs m' he; cases he
    have h0 := h
    rw [Exp.quiet] at h
    exact app (ih h _ _ _ rfl) (ih' h0 _ _ _ rfl)
  | plusOk _ _ ih ih' =>
    intro h p evs m' he; cases he
    rw [Exp.quiet] at h
    exact app (ih h _ _ _ rfl) (ih' (by rw [Exp.quiet]; exact h) _ _ _ rfl)
  | @nameOk r r' ru v _ _ _ _ _ hr _ ih =>
    intro h p evs m' he; cases he
    cases v with
    | some v => cases h
    | none =>
      intro s s' hs
      rw [List.cons_append] at hs
      cases hs with
      | enter hs =>
      obtain ⟨s1, h1, h2⟩ := runs_app hs
      have := ih (quietly hr (by rw [Exp.quiet] at h; exact h)) _ _ _ rfl _ _ h1
      subst this
      cases h2 with | leave h2 => cases h2; rfl
  | _ => intro _ p evs m' he; cases he <;> exact nil

end
end Potion.Greg
