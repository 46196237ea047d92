import Verif.Proof.SigText
import Verif.Proof.SyntaxMain
namespace Potion.Greg
open Potion.Peg (PExp NT Tree Kind)

section
variable {P : Nat → List Byte → Bool} {inp : List Byte}
local notation "Ev'" => Eval potionGrammar P inp
local notation "Run'" => Runs sigAct inp

variable (P inp) in
/-- `e` reads from `i` to `j`, and running what it calls for does `K`. -/
def Does (e : Exp) (i j : List Byte) (K : Env → Val → Env → Val → Prop) : Prop := ∀ r pos m, pos ≤ inp.length → inp.drop pos = i →
  ∃ p evs m', p ≤ inp.length ∧ inp.drop p = j ∧ Ev' r e pos m (.ok p evs m') ∧
    ∀ env envs y s', Run' evs (env :: envs, y) s' → ∃ env' y', s' = (env' :: envs, y') ∧ K env y env' y'

variable (P inp) in
/-- `e` does not match `i`. -/
def Miss (e : Exp) (i : List Byte) : Prop := ∀ r pos m, pos ≤ inp.length → inp.drop pos = i → ∃ m', Ev' r e pos m (.fail m')

/-- Nothing changes. -/
def Kq (env : Env) (y : Val) (env' : Env) (y' : Val) : Prop := env' = env ∧ y' = y
/-- The value is `t`. -/
def Kv (v : Option Nat) (t : Tree) (env : Env) (y : Val) (env' : Env) (y' : Val) : Prop :=
  env' = asg env v y' ∧ y'.1 = t ∧ y'.2.source = y.2.source ∧ y'.2.failed = y.2.failed
/-- Elements are added to the tuple. -/
def Adds (l : List Sig.Item) (y y' : Val) : Prop :=
  (∀ s, y.2.source = .tup s → ∃ a, y'.2.source = .tup (s ++ a) ∧ a.map itemOf = l) ∧ y'.2.failed = y.2.failed
def Ka (l : List Sig.Item) (env : Env) (y : Val) (env' : Env) (y' : Val) : Prop := env' = env ∧ Adds l y y'

theorem Adds.trans {l l' y y' y''} (h : Adds l y y') (h' : Adds l' y' y'') : Adds (l ++ l') y y'' := by
  refine ⟨fun s hs => ?_, h'.2.trans h.2⟩
  obtain ⟨a, e1, e2⟩ := h.1 s hs
  obtain ⟨b, e3, e4⟩ := h'.1 _ e1
  exact ⟨a ++ b, by rw [e3, List.append_assoc], by rw [List.map_append, e2, e4]⟩

theorem Adds.none {y y' : Val} (h1 : y'.2.source = y.2.source) (h2 : y'.2.failed = y.2.failed) : Adds [] y y' :=
  ⟨fun s hs => ⟨[], by rw [h1, hs, List.append_nil], rfl⟩, h2⟩

variable {e : Exp} {l : Exps} {q : PExp} {i j k : List Byte} {K K1 K2 : Env → Val → Env → Val → Prop} {r : Nat} {v : Option Nat} {t : Tree}

theorem Does.mono (h : Does P inp e i j K) (hk : ∀ env y env' y', K env y env' y' → K1 env y env' y') : Does P inp e i j K1 := by
  intro r pos m hp hi
  obtain ⟨p, evs, m', h1, h2, h3, h4⟩ := h r pos m hp hi
  refine ⟨p, evs, m', h1, h2, h3, fun env envs y s' hx => ?_⟩
  obtain ⟨env', y', e, h5⟩ := h4 env envs y s' hx
  exact ⟨env', y', e, hk _ _ _ _ h5⟩

theorem Does.nil : Does P inp (.seq .nil) i i Kq := by
  intro r pos m hp hi
  refine ⟨pos, [], m, hp, hi, .seqNil, fun env envs y s' hx => ?_⟩
  cases hx
  exact ⟨env, y, rfl, rfl, rfl⟩

theorem Does.cons (h : Does P inp e i j K1) (h' : Does P inp (.seq l) j k K2) :
    Does P inp (.seq (.cons e l)) i k fun env y env2 y2 => ∃ env1 y1, K1 env y env1 y1 ∧ K2 env1 y1 env2 y2 := by
  intro r pos m hp hi
  obtain ⟨p, evs, m', h1, h2, h3, h4⟩ := h r pos m hp hi
  obtain ⟨p', evs', m'', h5, h6, h7, h8⟩ := h' r p m' h1 h2
  refine ⟨p', _, m'', h5, h6, .seqOk h3 h7, fun env envs y s' hx => ?_⟩
  obtain ⟨s1, hx1, hx2⟩ := sruns_app hx
  obtain ⟨env1, y1, rfl, hk1⟩ := h4 _ _ _ _ hx1
  obtain ⟨env2, y2, rfl, hk2⟩ := h8 _ _ _ _ hx2
  exact ⟨env2, y2, rfl, env1, y1, hk1, hk2⟩

theorem Does.act {a} : Does P inp (.act a) i i fun env y env' y' => ∃ t, sigAct a t env y = (env', y') := by
  intro r pos m hp hi
  refine ⟨pos, _, m, hp, hi, .act, fun env envs y s' hx => ?_⟩
  cases hx with
  | act ht hx => cases hx; exact ⟨_, _, rfl, _, rfl⟩

theorem Does.alt (h : Does P inp e i j K) : Does P inp (.alt (.cons e l)) i j K := by
  intro r pos m hp hi
  obtain ⟨p, evs, m', h1, h2, h3, h4⟩ := h r pos m hp hi
  exact ⟨p, evs, m', h1, h2, .altOk h3, h4⟩

theorem Does.next {e'} (h0 : Miss P inp e i) (h : Does P inp (.alt (.cons e' l)) i j K) : Does P inp (.alt (.cons e (.cons e' l))) i j K := by
  intro r pos m hp hi
  obtain ⟨m0, h0⟩ := h0 r pos m hp hi
  obtain ⟨p, evs, m', h1, h2, h3, h4⟩ := h r pos m0 hp hi
  exact ⟨p, evs, m', h1, h2, .altNext h0 h3, h4⟩

theorem Does.some (h : Does P inp e i j K) : Does P inp (.opt e) i j K := by
  intro r pos m hp hi
  obtain ⟨p, evs, m', h1, h2, h3, h4⟩ := h r pos m hp hi
  exact ⟨p, evs, m', h1, h2, .optSome h3, h4⟩

theorem Does.none (h : Miss P inp e i) : Does P inp (.opt e) i i Kq := by
  intro r pos m hp hi
  obtain ⟨m0, h0⟩ := h r pos m hp hi
  refine ⟨pos, [], m0, hp, hi, .optNone h0, fun env envs y s' hx => ?_⟩
  cases hx
  exact ⟨env, y, rfl, rfl, rfl⟩

theorem Does.stop (h : Miss P inp e i) : Does P inp (.star e) i i Kq := by
  intro r pos m hp hi
  obtain ⟨m0, h0⟩ := h r pos m hp hi
  refine ⟨pos, [], m0, hp, hi, .starEnd h0, fun env envs y s' hx => ?_⟩
  cases hx
  exact ⟨env, y, rfl, rfl, rfl⟩

theorem Does.more (h : Does P inp e i j K1) (h' : Does P inp (.star e) j k K2) :
    Does P inp (.star e) i k fun env y env2 y2 => ∃ env1 y1, K1 env y env1 y1 ∧ K2 env1 y1 env2 y2 := by
  intro r pos m hp hi
  obtain ⟨p, evs, m', h1, h2, h3, h4⟩ := h r pos m hp hi
  obtain ⟨p', evs', m'', h5, h6, h7, h8⟩ := h' r p m' h1 h2
  refine ⟨p', _, m'', h5, h6, .starMore h3 h7, fun env envs y s' hx => ?_⟩
  obtain ⟨s1, hx1, hx2⟩ := sruns_app hx
  obtain ⟨env1, y1, rfl, hk1⟩ := h4 _ _ _ _ hx1
  obtain ⟨env2, y2, rfl, hk2⟩ := h8 _ _ _ _ hx2
  exact ⟨env2, y2, rfl, env1, y1, hk1, hk2⟩

theorem Does.plus (h : Does P inp e i j K1) (h' : Does P inp (.star e) j k K2) :
    Does P inp (.plus e) i k fun env y env2 y2 => ∃ env1 y1, K1 env y env1 y1 ∧ K2 env1 y1 env2 y2 := by
  intro r pos m hp hi
  obtain ⟨p, evs, m', h1, h2, h3, h4⟩ := h r pos m hp hi
  obtain ⟨p', evs', m'', h5, h6, h7, h8⟩ := h' r p m' h1 h2
  refine ⟨p', _, m'', h5, h6, .plusOk h3 h7, fun env envs y s' hx => ?_⟩
  obtain ⟨s1, hx1, hx2⟩ := sruns_app hx
  obtain ⟨env1, y1, rfl, hk1⟩ := h4 _ _ _ _ hx1
  obtain ⟨env2, y2, rfl, hk2⟩ := h8 _ _ _ _ hx2
  exact ⟨env2, y2, rfl, env1, y1, hk1, hk2⟩

theorem srun_name {r' : Nat} {ev1 : List Ev} {env : Env} {envs y s'} (h : Run' (.enter r' :: ev1 ++ .leave r' :: (v.map (Ev.set r)).toList) (env :: envs, y) s')
    {A : Val → Prop} (hk : ∀ env0 s1, Run' ev1 (env0 :: env :: envs, y) s1 → ∃ env' y1, s1 = (env' :: env :: envs, y1) ∧ A y1) :
    ∃ y1, A y1 ∧ s' = (asg env v y1 :: envs, y1) := by
  rw [List.cons_append] at h
  cases h with
  | enter h =>
  obtain ⟨s1, h1, h2⟩ := sruns_app h
  obtain ⟨env', y1, rfl, hy⟩ := hk _ _ h1
  cases h2 with
  | leave h2 =>
  refine ⟨y1, hy, ?_⟩
  cases v with
  | none => cases h2; rfl
  | some v => cases h2 with | set h2 => cases h2; rfl

theorem Does.name {ru : Rule} {A : Val → Val → Prop} (hr : potionGrammar[r]? = Option.some ru) (h : Does P inp ru.body i j K) (hk : ∀ env y env' y', K env y env' y' → A y y') :
    Does P inp (.name r v) i j fun env y env' y' => env' = asg env v y' ∧ A y y' := by
  intro r' pos m hp hi
  obtain ⟨p, evs, m', h1, h2, h3, h4⟩ := h r pos m hp hi
  refine ⟨p, _, m', h1, h2, .nameOk hr h3, fun env envs y s' hx => ?_⟩
  obtain ⟨y1, hy, rfl⟩ := srun_name (A := A y) hx fun env0 s1 h5 => by
    obtain ⟨env', y', rfl, h6⟩ := h4 _ _ _ _ h5
    exact ⟨env', y', rfl, hk _ _ _ _ h6⟩
  exact ⟨_, _, rfl, rfl, hy⟩

theorem Miss.head (h : Miss P inp e i) : Miss P inp (.seq (.cons e l)) i := by
  intro r pos m hp hi
  obtain ⟨m', h⟩ := h r pos m hp hi
  exact ⟨m', .seqFail h⟩

theorem Miss.tail (h : Does P inp e i j K) (h' : Miss P inp (.seq l) j) : Miss P inp (.seq (.cons e l)) i := by
  intro r pos m hp hi
  obtain ⟨p, evs, m', h1, h2, h3, h4⟩ := h r pos m hp hi
  obtain ⟨m2, h'⟩ := h' r p m' h1 h2
  exact ⟨m2, .seqFail2 h3 h'⟩

theorem Miss.alt1 (h : Miss P inp e i) : Miss P inp (.alt (.cons e .nil)) i := by
  intro r pos m hp hi
  obtain ⟨m', h⟩ := h r pos m hp hi
  exact ⟨m', .altFail h⟩

theorem Miss.alt {e'} (h : Miss P inp e i) (h' : Miss P inp (.alt (.cons e' l)) i) : Miss P inp (.alt (.cons e (.cons e' l))) i := by
  intro r pos m hp hi
  obtain ⟨m1, h⟩ := h r pos m hp hi
  obtain ⟨m2, h'⟩ := h' r pos m1 hp hi
  exact ⟨m2, .altNext h h'⟩

theorem Miss.name {ru : Rule} (hr : potionGrammar[r]? = Option.some ru) (h : Miss P inp ru.body i) : Miss P inp (.name r v) i := by
  intro r' pos m hp hi
  obtain ⟨m', h⟩ := h r pos m hp hi
  exact ⟨m', .nameFail hr h⟩

theorem Miss.chr {c : Byte} (h : i.head? ≠ some c) : Miss P inp (.chr c) i := by
  intro r pos m hp hi
  refine ⟨m, .chrFail ?_⟩
  rw [← hi, List.head?_drop] at h
  exact h

theorem Does.chr {c : Byte} : Does P inp (.chr c) (c :: i) i Kq := by
  intro r pos m hp hi
  have h : inp[pos]? = Option.some c := by rw [← List.head?_drop, hi]; rfl
  have hl : pos < inp.length := (List.getElem?_eq_some_iff.1 h).1
  refine ⟨pos + 1, [], m, hl, ?_, .chrOk h, fun env envs y s' hx => ?_⟩
  · rw [← List.drop_drop, hi]; rfl
  · cases hx; exact ⟨env, y, rfl, rfl, rfl⟩

/-! ### Single rules -/

theorem tot (hf : e.fine (nulOf potionNul) potionGrammar.length = true) (hg : e.Good) {pos : Nat} (hp : pos ≤ inp.length) (r m) : ∃ res, Ev' r e pos m res :=
  eval_total (chkAll_ends potion_chk) (fun r ru h => (potion_made r ru h).2) _ pos rfl hp e hf hg r m

theorem miss_of (hs : Same (.name r v) q) (h : Peg.G q i none) (hr : r < potionGrammar.length := by decide +kernel) : Miss P inp (.name r v) i := by
  intro r' pos m hp hi
  obtain ⟨res, h1⟩ := tot (P := P) (e := .name r v) (by rw [Exp.fine]; exact decide_eq_true hr) trivial hp r' m
  obtain ⟨f, h⟩ := h
  cases res with
  | ok p evs m' => exact (same_not2 hs h1 (f := f) ⟨f, Nat.le_refl _, by rw [hi]; exact h⟩).elim
  | fail m' => exact ⟨m', h1⟩

theorem ok_of (hs : Same (.name r v) q) (h : Peg.G q i (some (t, j))) (hr : r < potionGrammar.length := by decide +kernel) {r' pos m} (hp : pos ≤ inp.length) (hi : inp.drop pos = i) :
    ∃ p evs m' f, p ≤ inp.length ∧ inp.drop p = j ∧ Ev' r' (.name r v) pos m (.ok p evs m') ∧ R f q (inp.drop pos) (some (t, j)) := by
  obtain ⟨res, h1⟩ := tot (P := P) (e := .name r v) (by rw [Exp.fine]; exact decide_eq_true hr) trivial hp r' m
  obtain ⟨f, h⟩ := h
  have hR : R f q (inp.drop pos) (some (t, j)) := ⟨f, Nat.le_refl _, by rw [hi]; exact h⟩
  cases res with
  | ok p evs m' => exact ⟨p, evs, m', f, (moves h1).2 hp, (same_some hs h1 hR).symm, h1, hR⟩
  | fail m' => exact (same_not1 hs h1 hR).elim

/-- White space and punctuation. -/
theorem quiet_of (hs : Same (.name r none) q) (h : Peg.Goes q i j) (hq : isQuiet r = true := by decide +kernel) (hr : r < potionGrammar.length := by decide +kernel) :
    Does P inp (.name r none) i j Kq := by
  intro r' pos m hp hi
  obtain ⟨t, h⟩ := h
  obtain ⟨p, evs, m', f, h1, h2, h3, -⟩ := ok_of (P := P) hs h hr (r' := r') (m := m) hp hi
  refine ⟨p, evs, m', h1, h2, h3, fun env envs y s' hx => ?_⟩
  have hx := tame_runs hx (mild_tame h3 (by rw [Exp.mild, isMild, hq]; rfl) _ _ _ rfl)
  cases quiet_runs h3 (by rw [Exp.quiet]; exact hq) _ _ _ rfl _ _ hx
  exact ⟨env, y, rfl, rfl, rfl⟩

/-- Strings and numbers are determined by `Fits`. -/
def Solid (t : Tree) : Prop := (∃ s, t = .str s) ∨ ∃ w, t = .imm w

theorem Solid.eq {t v} (h : Solid t) (hf : Fits t v) : v = t := by
  rcases h with ⟨s, rfl⟩ | ⟨w, rfl⟩ <;> (cases hf; rfl)
theorem Solid.clean {t} (h : Solid t) : Clean t := by
  rcases h with ⟨s, rfl⟩ | ⟨w, rfl⟩
  · exact .str
  · exact .imm

theorem value_of (hR : ∀ f, Rl P inp f r q) (hs : Same (.name r v) q) (hm : isMild r = true) (hr : r < potionGrammar.length) (h : Peg.G q i (some (t, j))) (ht : Solid t) :
    Does P inp (.name r v) i j (Kv v t) := by
  intro r' pos m hp hi
  obtain ⟨p, evs, m', f, h1, h2, h3, h4⟩ := ok_of (P := P) hs h hr (r' := r') (m := m) hp hi
  refine ⟨p, evs, m', h1, h2, h3, fun env envs y s' hx => ?_⟩
  have hT := mild_tame h3 (by rw [Exp.mild]; exact hm) _ _ _ rfl
  have hx := tame_runs hx hT
  have hsrc := tame_src hx hT
  obtain ⟨y1, hy, rfl⟩ := name_step (hR f) hp h3 h4 hx
  exact ⟨_, _, rfl, rfl, ht.eq hy.1, hsrc, hy.2 ht.clean⟩

end
end Potion.Greg
