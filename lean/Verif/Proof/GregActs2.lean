import Verif.Proof.GregActs
namespace Potion.Greg
open Potion.Peg (PExp NT Tree Kind)

/-- Rules and tokens. -/
macro "same" : tactic => `(tactic| first | exact Same.nt rfl | exact S.sp | exact S.sep | exact S.assign | exact S.pplus | exact S.mminus | exact S.plus | exact S.minus | exact S.listStart | exact S.listEnd | exact S.not | exact S.wavy | exact S.spnl | exact S.quiz | exact S.keyword | exact S.q1 | exact S.q2 | exact S.esc | exact S.defassign | exact S.or | exact S.and | exact S.pipe | exact S.caret | exact S.amp | exact S.bitl | exact S.bitr | exact S.times | exact S.div | exact S.rem | exact S.pow | exact S.lt | exact S.lte | exact S.gt | exact S.gte | exact S.neq | exact S.eq | exact S.cmp | exact S.blockStart | exact S.blockEnd | exact S.lickStart | exact S.lickEnd | exact S.groupStart | exact S.groupEnd | exact S.comma | exact S.utff | exact S.utfw | exact S.utf8 | exact S.hexl)

/-- A value for the tree `t`, computed from a state with `$$ = y`. -/
def Ok (t : Tree) (y y' : Val) : Prop := Fits t y'.1 ∧ (Clean t → y'.2.failed = y.2.failed)

theorem Ok.fits {t y y'} (h : Ok t y y') : Fits t y'.1 := h.1

/-- The value of a rule is assigned to a variable. -/
def asg (env : Env) (v : Option Nat) (y : Val) : Env := match v with
  | some v => fun i => if i = v then y else env i
  | none => env

section
variable {P : Nat → List Byte → Bool} {inp : List Byte}
local notation "Ev'" => Eval potionGrammar P inp
local notation "Run'" => Runs runAct inp

variable (P inp) in
/-- Rule `r` computes the trees of `q`. -/
def Rl (f r : Nat) (q : PExp) : Prop := ∀ {ru pos m p evs m' t i env envs y s'}, potionGrammar[r]? = some ru → pos ≤ inp.length →
  Ev' r ru.body pos m (.ok p evs m') → R f q (inp.drop pos) (some (t, i)) → Run' evs (env :: envs, y) s' → ∃ env' y', s' = (env' :: envs, y') ∧ Ok t y y'

variable {r r' f : Nat} {e : Exp} {l : Exps} {q : PExp} {pos p : Nat} {m m' : Marks} {evs : List Ev} {env : Env} {envs : List Env} {y : Val} {s s' : List Env × Val}
  {t : Tree} {i : List Byte}

theorem Rl_nt {n} (h : ∀ f', f' < f → Rl P inp f' r (Peg.rule n)) : Rl P inp f r (.nt n) := by
  intro ru pos m p evs m' t i env envs y s' h1 h2 h3 h4 h5
  obtain ⟨f', hf, h4⟩ := h4.nt
  exact h f' hf h1 h2 h3 h4 h5

theorem seq_inv (h : Ev' r (.seq (.cons e l)) pos m (.ok p evs m')) : ∃ p1 ev1 m1 ev2, Ev' r e pos m (.ok p1 ev1 m1) ∧ Ev' r (.seq l) p1 m1 (.ok p ev2 m') ∧ evs = ev1 ++ ev2 := by
  cases h with | seqOk h1 h2 => exact ⟨_, _, _, _, h1, h2, rfl⟩

theorem seq_end (h : Ev' r (.seq .nil) pos m (.ok p evs m')) (hx : Run' evs s s') : p = pos ∧ m' = m ∧ s' = s := by
  cases h with | seqNil => cases hx; exact ⟨rfl, rfl, rfl⟩

theorem seq_skip (hp : pos ≤ inp.length) (h : Ev' r (.seq (.cons e l)) pos m (.ok p evs m')) (hx : Run' evs s s') (hq : e.quiet isQuiet = true) :
    ∃ p1 ev1 ev2, p1 ≤ inp.length ∧ Ev' r e pos m (.ok p1 ev1 m) ∧ Ev' r (.seq l) p1 m (.ok p ev2 m') ∧ Run' ev2 s s' := by
  obtain ⟨p1, ev1, m1, ev2, h1, h2, rfl⟩ := seq_inv h
  obtain ⟨s1, hx1, hx2⟩ := runs_app hx
  have e1 := (quiet_marks h1 hq).1 _ _ _ rfl
  have e2 := quiet_runs h1 hq _ _ _ rfl _ _ hx1
  subst e1 e2
  exact ⟨p1, ev1, ev2, (moves h1).2 hp, h1, h2, hx2⟩

theorem seq_tok (hp : pos ≤ inp.length) (h : Ev' r (.seq (.cons e l)) pos m (.ok p evs m')) (hx : Run' evs s s') (hr : R f q (inp.drop pos) (some (t, i)))
    (hq : e.quiet isQuiet = true := by decide +kernel) (hs : Same e q := by same) :
    ∃ p1 ev2, p1 ≤ inp.length ∧ i = inp.drop p1 ∧ Ev' r (.seq l) p1 m (.ok p ev2 m') ∧ Run' ev2 s s' := by
  obtain ⟨p1, ev1, ev2, h1, h2, h3, h4⟩ := seq_skip hp h hx hq
  exact ⟨p1, ev2, h1, same_some hs h2 hr, h3, h4⟩

theorem name_inv {v} (h : Ev' r (.name r' v) pos m (.ok p evs m')) : ∃ ru ev1, potionGrammar[r']? = some ru ∧ Ev' r' ru.body pos m (.ok p ev1 m') ∧
    evs = .enter r' :: ev1 ++ .leave r' :: (v.map (Ev.set r)).toList := by
  cases h with | nameOk h1 h2 => exact ⟨_, _, h1, h2, rfl⟩

theorem run_name {ev1 : List Ev} {v : Option Nat} (h : Run' (.enter r' :: ev1 ++ .leave r' :: (v.map (Ev.set r)).toList) (env :: envs, y) s')
    {K : Val → Prop} (hk : ∀ env0 s1, Run' ev1 (env0 :: env :: envs, y) s1 → ∃ env' y1, s1 = (env' :: env :: envs, y1) ∧ K y1) :
    ∃ y1, K y1 ∧ s' = (asg env v y1 :: envs, y1) := by
  rw [List.cons_append] at h
  cases h with
  | enter h =>
  obtain ⟨s1, h1, h2⟩ := runs_app h
  obtain ⟨env', y1, rfl, hy⟩ := hk _ _ h1
  cases h2 with
  | leave h2 =>
  refine ⟨y1, hy, ?_⟩
  cases v with
  | none => cases h2; rfl
  | some v => cases h2 with | set h2 => cases h2; rfl

theorem name_step {v} (hR : Rl P inp f r' q) (hp : pos ≤ inp.length) (h : Ev' r (.name r' v) pos m (.ok p evs m')) (hr : R f q (inp.drop pos) (some (t, i)))
    (hx : Run' evs (env :: envs, y) s') : ∃ y1, Ok t y y1 ∧ s' = (asg env v y1 :: envs, y1) := by
  obtain ⟨ru, ev1, h1, h2, rfl⟩ := name_inv h
  exact run_name hx fun env0 s1 h3 => hR h1 hp h2 hr h3

theorem seq_name {v} (hR : Rl P inp f r' q) (hp : pos ≤ inp.length) (h : Ev' r (.seq (.cons (.name r' v) l)) pos m (.ok p evs m')) (hx : Run' evs (env :: envs, y) s')
    (hr : R f q (inp.drop pos) (some (t, i))) (hs : Same (.name r' v) q := by same) :
    ∃ p1 m1 ev2 y1, p1 ≤ inp.length ∧ i = inp.drop p1 ∧ Ok t y y1 ∧ Ev' r (.seq l) p1 m1 (.ok p ev2 m') ∧
      Run' ev2 (asg env v y1 :: envs, y1) s' := by
  obtain ⟨p1, ev1, m1, ev2, h1, h2, rfl⟩ := seq_inv h
  obtain ⟨s1, hx1, hx2⟩ := runs_app hx
  obtain ⟨y1, h3, rfl⟩ := name_step hR hp h1 hr hx1
  exact ⟨p1, m1, ev2, y1, (moves h1).2 hp, same_some hs h1 hr, h3, h2, hx2⟩

theorem seq_act {a} (h : Ev' r (.seq (.cons (.act a) l)) pos m (.ok p evs m')) (hx : Run' evs (env :: envs, y) s') :
    ∃ ev2 txt, Ev' r (.seq l) pos m (.ok p ev2 m') ∧ (m.e ≠ 0 → txt = slice inp m.b m.e) ∧ Run' ev2 ((runAct a txt env y).1 :: envs, (runAct a txt env y).2) s' := by
  obtain ⟨p1, ev1, m1, ev2, h1, h2, rfl⟩ := seq_inv h
  cases h1 with
  | act =>
  cases hx with
  | act ht hx => exact ⟨ev2, _, h2, ht, hx⟩

theorem seq_open (h : Ev' r (.seq (.cons .open l)) pos m (.ok p evs m')) : Ev' r (.seq l) pos { m with b := pos } (.ok p evs m') := by
  obtain ⟨p1, ev1, m1, ev2, h1, h2, rfl⟩ := seq_inv h
  cases h1; exact h2

theorem seq_close (h : Ev' r (.seq (.cons .close l)) pos m (.ok p evs m')) : Ev' r (.seq l) pos { m with e := pos } (.ok p evs m') := by
  obtain ⟨p1, ev1, m1, ev2, h1, h2, rfl⟩ := seq_inv h
  cases h1; exact h2

/-- Alternatives. -/
theorem alts_inv : ∀ {ps : List (Exp × PExp)} {m : Marks} {x}, ps ≠ [] → (∀ x ∈ ps, Same x.1 x.2) → Ev' r (choice (ps.map (·.1))) pos m (.ok p evs m') →
    R f (Peg.alts (ps.map (·.2))) (inp.drop pos) (some x) → ∃ y ∈ ps, ∃ m1, Ev' r y.1 pos m1 (.ok p evs m') ∧ R f y.2 (inp.drop pos) (some x)
  | [], _, _, h, _, _, _ => absurd rfl h
  | [a], m, x, _, hs, h, hr => by
    cases h with | altOk h => exact ⟨a, by simp, m, h, hr⟩
  | a :: b :: ps, m, x, _, hs, h, hr => by
    have hr : R f (.alt a.2 (Peg.alts ((b :: ps).map (·.2)))) (inp.drop pos) (some x) := hr
    cases h with
    | altOk h =>
      rcases hr.alt with ⟨z, e, hr⟩ | ⟨hr, _⟩
      · cases e; exact ⟨a, by simp, m, h, hr⟩
      · exact (same_not2 (hs a (by simp)) h hr).elim
    | altNext h1 h =>
      rcases hr.alt with ⟨z, e, hr⟩ | ⟨_, hr⟩
      · exact (same_not1 (hs a (by simp)) h1 hr).elim
      · obtain ⟨y, hy, m1, h2, h3⟩ := alts_inv (ps := b :: ps) (by simp) (fun x hx => hs x (by simp only [List.mem_cons]; exact .inr (by simpa using hx))) h hr
        exact ⟨y, by simp only [List.mem_cons]; exact .inr (by simpa using hy), m1, h2, h3⟩

/-- Optional parts; `q2` is what stands for their absence. -/
theorem opt_inv {q2} {x} (hs : Same e q) (h : Ev' r (.opt e) pos m (.ok p evs m')) (hr : R f (.alt q q2) (inp.drop pos) (some x)) :
    (Ev' r e pos m (.ok p evs m') ∧ R f q (inp.drop pos) (some x)) ∨ (p = pos ∧ evs = [] ∧ R f q2 (inp.drop pos) (some x)) := by
  cases h with
  | optSome h =>
    rcases hr.alt with ⟨z, e, hr⟩ | ⟨hr, _⟩
    · cases e; exact .inl ⟨h, hr⟩
    · exact (same_not2 hs h hr).elim
  | optNone h =>
    rcases hr.alt with ⟨z, e, hr⟩ | ⟨_, hr⟩
    · exact (same_not1 hs h hr).elim
    · exact .inr ⟨rfl, rfl, hr⟩

/-- Repetition. -/
theorem star_ind (hs : Same e q) (I : List Tree → Env → Val → Prop)
    (hstep : ∀ {pos m p evs m' t i env y s'} {lst : List Tree}, pos ≤ inp.length → I lst env y → Ev' r e pos m (.ok p evs m') → R f q (inp.drop pos) (some (t, i)) →
      Run' evs (env :: envs, y) s' → ∃ env' y', s' = (env' :: envs, y') ∧ I (lst ++ [t]) env' y')
    (hp : pos ≤ inp.length) (h : Ev' r (.star e) pos m (.ok p evs m')) : ∀ {t i env y s'} {lst : List Tree}, R f (.star q) (inp.drop pos) (some (t, i)) →
    Run' evs (env :: envs, y) s' → I lst env y → ∃ l env' y', t = .tup l ∧ i = inp.drop p ∧ s' = (env' :: envs, y') ∧ I (lst ++ l) env' y' := by
  generalize hE : Exp.star e = E at h
  generalize hE2 : Res.ok p evs m' = res at h
  induction h generalizing p evs m' with
  | starEnd h1 ih =>
    cases hE; cases hE2
    intro t i env y s' lst hr hx hI
    rcases hr.star with ⟨_, rfl, rfl⟩ | ⟨t1, i1, l, hr, _⟩
    · cases hx; exact ⟨[], env, y, rfl, rfl, rfl, by rw [List.append_nil]; exact hI⟩
    · exact (same_not1 hs h1 hr).elim
  | starMore h1 h2 ih1 ih2 =>
    cases hE; cases hE2
    intro t i env y s' lst hr hx hI
    rcases hr.star with ⟨hr1, _⟩ | ⟨t1, i1, l, hr1, hr2, rfl⟩
    · exact (same_not2 hs h1 hr1).elim
    · obtain ⟨s1, hx1, hx2⟩ := runs_app hx
      have e1 := same_some hs h1 hr1
      subst e1
      obtain ⟨env1, y1, rfl, hI1⟩ := hstep hp hI h1 hr1 hx1
      obtain ⟨l', env', y', e2, e3, e4, e5⟩ := ih2 hstep ((moves h1).2 hp) rfl rfl hr2 hx2 hI1
      cases e2
      exact ⟨_, env', y', rfl, e3, e4, by rw [List.append_assoc] at e5; exact e5⟩
  | _ => cases hE

/-! ### Operators -/

structure Op where
  tok : Nat
  q : PExp
  act : Nat
  k : Kind

def Op.ex (b : Nat) (o : Op) : Exp := sequ [.name o.tok none, .name b (some 0), .act o.act]
def Op.px (n : NT) (o : Op) : PExp := .act (fun y => .node o.k .nil y .nil) (Peg.right o.q (.nt n))

theorem foldOps_push : ∀ {l : List Tree} {x k a y c}, Peg.foldOps x (l ++ [.node k a y c]) = Peg.ast2 k (Peg.foldOps x l) y
  | [], _, _, _, _, _ => rfl
  | .node k _ y _ :: l, _, _, _, _, _ => by rw [List.cons_append, Peg.foldOps, Peg.foldOps, foldOps_push]
  | .imm _ :: l, _, _, _, _, _ => by rw [List.cons_append, Peg.foldOps, Peg.foldOps, foldOps_push]
                                     all_goals (intros; exact Tree.noConfusion ‹_›)
  | .str _ :: l, _, _, _, _, _ => by rw [List.cons_append, Peg.foldOps, Peg.foldOps, foldOps_push]
                                     all_goals (intros; exact Tree.noConfusion ‹_›)
  | .dbl _ :: l, _, _, _, _, _ => by rw [List.cons_append, Peg.foldOps, Peg.foldOps, foldOps_push]
                                     all_goals (intros; exact Tree.noConfusion ‹_›)
  | .tup _ :: l, _, _, _, _, _ => by rw [List.cons_append, Peg.foldOps, Peg.foldOps, foldOps_push]
                                     all_goals (intros; exact Tree.noConfusion ‹_›)
  | .stale :: l, _, _, _, _, _ => by rw [List.cons_append, Peg.foldOps, Peg.foldOps, foldOps_push]
                                     all_goals (intros; exact Tree.noConfusion ‹_›)
  | .error :: l, _, _, _, _, _ => by rw [List.cons_append, Peg.foldOps, Peg.foldOps, foldOps_push]
                                     all_goals (intros; exact Tree.noConfusion ‹_›)
  | .none :: l, _, _, _, _, _ => by rw [List.cons_append, Peg.foldOps, Peg.foldOps, foldOps_push]
                                    all_goals (intros; exact Tree.noConfusion ‹_›)
  | .pair _ _ :: l, _, _, _, _, _ => by rw [List.cons_append, Peg.foldOps, Peg.foldOps, foldOps_push]
                                        all_goals (intros; exact Tree.noConfusion ‹_›)

structure Op.Fine (o : Op) : Prop where
  quiet : (Exp.name o.tok none).quiet isQuiet = true
  same : Same (.name o.tok none) o.q
  act : ∀ t env y, runAct o.act t env y = put 1 (ast2 o.k (env 1).1 (env 0).1) env y

theorem Op.Fine.ex {o : Op} (h : o.Fine) {b : Nat} {n : NT} (hb : Same (.name b (some 0)) (.nt n)) : Same (o.ex b) (o.px n) :=
  Same.to (.seq h.same (.last hb (.act .eps)))

theorem chain_ok {b : Nat} {n : NT} {ops : List Op} {fin : Nat} {body : Exp} {qs : PExp} {ru : Rule} (hru : potionGrammar[r]? = some ru)
    (hbody : ru.body = sequ [.name b (some 1), .star body, .act fin]) (hsame : Same body qs) (hb : Same (.name b (some 1)) (.nt n)) (hb' : Same (.name b (some 0)) (.nt n))
    (hops : ∀ o ∈ ops, o.Fine)
    (hinv : ∀ {pos m p evs m' x}, Ev' r body pos m (.ok p evs m') → R f qs (inp.drop pos) (some x) →
      ∃ o ∈ ops, ∃ m1, Ev' r (o.ex b) pos m1 (.ok p evs m') ∧ R f (o.px n) (inp.drop pos) (some x))
    (hfin : ∀ t env y, runAct fin t env y = ret (env 1).1 env y) (H : Rl P inp f b (.nt n)) :
    Rl P inp f r (.act (fun | .pair x (.tup l) => Peg.foldOps x l | v => v) (.seq (.nt n) (.star qs))) := by
  intro ru' pos m p evs m' t i env envs y s' hr hp h hR hx
  rw [hru] at hr; cases hr
  rw [hbody] at h
  obtain ⟨t0, hR0, rfl⟩ := hR.act
  obtain ⟨x, i1, tl, hR1, hR2, rfl⟩ := hR0.seq
  obtain ⟨p1, m1, ev2, y1, hp1, rfl, hy1, h, hx⟩ := seq_name H hp h hx hR1 hb
  obtain ⟨p2, ev3, m2, ev4, h1, h3, rfl⟩ := seq_inv h
  obtain ⟨s1, hx1, hx2⟩ := runs_app hx
  obtain ⟨l, env', y', rfl, rfl, rfl, hI⟩ := star_ind (lst := []) hsame
    (fun l env' y' => Fits (Peg.foldOps x l) (env' 1).1 ∧ (Clean (Peg.foldOps x l) → y'.2.failed = y.2.failed))
    (by
      intro pos m p evs m' t i env y' s' lst hp hI h hR hx
      obtain ⟨o, ho, m1, h, hR⟩ := hinv h hR
      have hf := hops o ho
      obtain ⟨t1, hR0, rfl⟩ := hR.act
      obtain ⟨_, i1, hR1, hR2⟩ := hR0.right
      obtain ⟨p1, ev2, hp1, rfl, h, hx⟩ := seq_tok hp h hx hR1 hf.quiet hf.same
      obtain ⟨p2, m2, ev3, y1, hp2, rfl, hy1, h, hx⟩ := seq_name H hp1 h hx hR2 hb'
      obtain ⟨ev4, txt, h, _, hx⟩ := seq_act h hx
      obtain ⟨-, -, rfl⟩ := seq_end h hx
      rw [hf.act]
      refine ⟨_, _, rfl, ?_⟩
      rw [foldOps_push]
      refine ⟨?_, fun hc => ?_⟩
      · simp only [put, asg, if_true]
        exact .ast2 hI.1 hy1.1
      · have := hc.inv
        show y1.2.failed = _
        rw [hy1.2 this.2.1, hI.2 this.1])
    hp1 h1 hR2 hx1 ⟨hy1.1, hy1.2⟩
  obtain ⟨ev5, txt, h4, _, hx2⟩ := seq_act h3 hx2
  obtain ⟨-, -, rfl⟩ := seq_end h4 hx2
  rw [hfin]
  exact ⟨_, _, rfl, hI.1, hI.2⟩

theorem ops_inv {b : Nat} {n : NT} (ops : List Op) (h0 : ops ≠ []) (hs : ∀ o ∈ ops, Same (o.ex b) (o.px n)) {x}
    (h : Ev' r (choice (ops.map (·.ex b))) pos m (.ok p evs m')) (hr : R f (Peg.alts (ops.map (·.px n))) (inp.drop pos) (some x)) :
    ∃ o ∈ ops, ∃ m1, Ev' r (o.ex b) pos m1 (.ok p evs m') ∧ R f (o.px n) (inp.drop pos) (some x) := by
  have := alts_inv (ps := ops.map fun o => (o.ex b, o.px n)) (by simpa using h0) (by simpa using hs) (by rw [List.map_map]; exact h) (by rw [List.map_map]; exact hr)
  obtain ⟨z, hz, m1, h1, h2⟩ := this
  obtain ⟨o, ho, rfl⟩ := List.mem_map.1 hz
  exact ⟨o, ho, m1, h1, h2⟩

theorem chains_ok {b : Nat} {n : NT} (ops : List Op) {fin : Nat} {ru : Rule} (h0 : ops ≠ []) (hru : potionGrammar[r]? = some ru)
    (hbody : ru.body = sequ [.name b (some 1), .star (choice (ops.map (·.ex b))), .act fin]) (hn : ntOf b = some n)
    (hops : ∀ o ∈ ops, o.Fine)
    (hfin : ∀ t env y, runAct fin t env y = ret (env 1).1 env y) (H : Rl P inp f b (.nt n)) :
    Rl P inp f r (.act (fun | .pair x (.tup l) => Peg.foldOps x l | v => v) (.seq (.nt n) (.star (Peg.alts (ops.map (·.px n)))))) := by
  refine chain_ok hru hbody ?_ (.nt hn) (.nt hn) hops (fun h hr => ops_inv _ h0 (fun o ho => (hops o ho).ex (.nt hn)) h hr) hfin H
  have := Same.choice (ps := ops.map fun o => (o.ex b, o.px n)) (by simpa using h0) (by simpa using fun o ho => (hops o ho).ex (.nt hn))
  rw [List.map_map, List.map_map] at this
  exact this

end
end Potion.Greg
