import Verif.Proof.GregActs4
namespace Potion.Greg
open Potion.Peg (PExp NT Tree Kind)

section
variable {f : Nat} {i i2 : List Byte} {t : Tree}

theorem R.seq_none {a b} (h : R f (.seq a b) i none) : R f a i none ∨ ∃ t1 i1, R f a i (some (t1, i1)) ∧ R f b i1 none := by
  obtain ⟨f', hf, h⟩ := h
  cases f' with
  | zero => cases h
  | succ f' =>
    rw [Peg.run] at h
    split at h
    · cases h
    · next h1 => exact .inl ⟨_, by omega, h1⟩
    · next h1 =>
      split at h
      · cases h
      · next h2 => exact .inr ⟨_, _, ⟨_, by omega, h1⟩, ⟨_, by omega, h2⟩⟩
      · cases h

theorem R.act_none {g a} (h : R f (.act g a) i none) : R f a i none := by
  obtain ⟨f', hf, h⟩ := h
  cases f' with
  | zero => cases h
  | succ f' =>
    rw [Peg.run] at h
    split at h
    · cases h
    · next h1 => exact ⟨_, by omega, h1⟩
    · cases h

theorem R.cap_none {a} (h : R f (.cap a) i none) : R f a i none := by
  obtain ⟨f', hf, h⟩ := h
  cases f' with
  | zero => cases h
  | succ f' =>
    rw [Peg.run] at h
    split at h
    · cases h
    · next h1 => exact ⟨_, by omega, h1⟩
    · cases h

theorem R.not_none {a} (h : R f (.not a) i none) : ∃ x, R f a i (some x) := by
  obtain ⟨f', hf, h⟩ := h
  cases f' with
  | zero => cases h
  | succ f' =>
    rw [Peg.run] at h
    split at h
    · cases h
    · cases h
    · next h1 => exact ⟨_, _, by omega, h1⟩
end

section
variable {P : Nat → List Byte → Bool} {inp : List Byte} {f : Nat}
local notation "Ev'" => Eval potionGrammar P inp
local notation "Run'" => Runs runAct inp
variable {r : Nat} {pos p : Nat} {m m' : Marks} {evs : List Ev} {env : Env} {envs : List Env} {y : Val} {s s' : List Env × Val} {t : Tree} {i : List Byte} {q : PExp}

/-! ### Text -/

theorem slice_take (h1 : pos ≤ p) (h2 : p ≤ inp.length) : (inp.drop pos).take ((inp.drop pos).length - (inp.drop p).length) = slice inp pos p := by
  rw [slice, List.length_drop, List.length_drop]
  congr 1; omega

theorem sequ_app : ∀ {es rest : List Exp} {pos m evs}, Ev' r (sequ (es ++ rest)) pos m (.ok p evs m') →
    ∃ p1 ev1 m1 ev2, Ev' r (sequ es) pos m (.ok p1 ev1 m1) ∧ Ev' r (sequ rest) p1 m1 (.ok p ev2 m') ∧ evs = ev1 ++ ev2
  | [], rest, pos, m, evs, h => ⟨pos, [], m, evs, .seqNil, h, rfl⟩
  | e :: es, rest, pos, m, evs, h => by
    obtain ⟨p1, ev1, m1, ev2, h1, h2, rfl⟩ := seq_inv (l := .ofList (es ++ rest)) h
    obtain ⟨p2, ev3, m2, ev4, h3, h4, rfl⟩ := sequ_app (es := es) (rest := rest) h2
    exact ⟨p2, _, m2, ev4, .seqOk h1 h3, h4, by rw [List.append_assoc]⟩

/-- `< es > rest` -/
theorem seq_cap {es rest : List Exp} (hp : pos ≤ inp.length) (h : Ev' r (sequ (.open :: es ++ .close :: rest)) pos m (.ok p evs m')) (hx : Run' evs s s')
    (hR : R f (.cap q) (inp.drop pos) (some (t, i))) (hs : Same (sequ es) q) (hq : (sequ es).quiet isQuiet = true := by decide +kernel)
    (hn : (sequ es).null (nulOf potionNul) = false := by decide +kernel) :
    ∃ p1 ev2, p1 ≤ inp.length ∧ i = inp.drop p1 ∧ t = .str (slice inp pos p1) ∧ p1 ≠ 0 ∧ Ev' r (sequ rest) p1 ⟨pos, p1, m.errs⟩ (.ok p ev2 m') ∧ Run' ev2 s s' := by
  have h := seq_open (l := .ofList (es ++ .close :: rest)) h
  obtain ⟨p1, ev1, m1, ev2, h1, h2, rfl⟩ := sequ_app (es := es) h
  obtain ⟨s1, hx1, hx2⟩ := runs_app hx
  have e1 := (quiet_marks h1 hq).1 _ _ _ rfl
  have e2 := quiet_runs h1 hq _ _ _ rfl _ _ hx1
  subst e1 e2
  have h3 := seq_close (l := .ofList rest) h2
  obtain ⟨t1, hR1, rfl⟩ := hR.cap
  have e3 := same_some hs h1 hR1
  subst e3
  have h4 := moves h1
  have h5 := moves1 h1 hn
  exact ⟨p1, ev2, h4.2 hp, rfl, by rw [slice_take h4.1 (h4.2 hp)], by omega, h3, hx2⟩

/-! ### Alternatives -/

/-- The expression computes the tree. -/
def Dv (P : Nat → List Byte → Bool) (inp : List Byte) (f : Nat) (w : Exp × PExp) : Prop := ∀ {r pos m p evs m' t i env envs y s'},
  pos ≤ inp.length → Eval potionGrammar P inp r w.1 pos m (.ok p evs m') → R f w.2 (inp.drop pos) (some (t, i)) → Runs runAct inp evs (env :: envs, y) s' →
  ∃ env' y', s' = (env' :: envs, y') ∧ Ok t y y'

theorem alts_ok {r : Nat} {ru : Rule} (ps : List (Exp × PExp)) (h0 : ps ≠ []) (hru : potionGrammar[r]? = some ru) (hbody : ru.body = choice (ps.map (·.1)))
    (hs : ∀ x ∈ ps, Same x.1 x.2) (hd : ∀ x ∈ ps, Dv P inp f x) : Rl P inp f r (Peg.alts (ps.map (·.2))) := by
  intro ru' pos m p evs m' t i env envs y s' hr hp h hR hx
  rw [hru] at hr; cases hr
  rw [hbody] at h
  obtain ⟨w, hw, m4, h7, hR4⟩ := alts_inv h0 hs h hR
  exact hd w hw hp h7 hR4 hx

theorem Dv.name {r' v q} (h : Rl P inp f r' q) : Dv P inp f (.name r' v, q) := by
  intro r pos m p evs m' t i env envs y s' hp h' hR hx
  obtain ⟨y1, hy, rfl⟩ := name_step h hp h' hR hx
  exact ⟨_, _, rfl, hy⟩

/-! ### Names -/

theorem S.ident : Same (sequ [.name R.utff none, .star (.name R.utfw none)]) (.seq Peg.utff (.star Peg.utfw)) := .seq S.utff (.last (.star S.utfw) .eps)

theorem S.path {v} : Same (.name R.path_ v) Peg.path :=
  .name rfl (Same.to (q := .seq (Peg.tok "/") (.seq (.seq Peg.utff (.star Peg.utfw)) Peg.ws)) (.seq (.chr rfl) (.op (.seq2 S.utff (.star S.utfw) (.cl (.last S.sp (.act .eps)))))))

theorem path_ok : Rl P inp f R.path_ Peg.path := by
  intro ru pos m p evs m' t i env envs y s' hr hp h hR hx
  cases hr
  obtain ⟨_, i1, hR1, hR2⟩ := R.right hR
  obtain ⟨_, i2, hR3, hR4⟩ := hR2.left
  obtain ⟨p1, ev1, hp1, rfl, h, hx⟩ := seq_tok hp h hx hR1 rfl (.chr rfl)
  obtain ⟨p2, ev2, hp2, rfl, rfl, h0, h, hx⟩ := seq_cap (es := [.name R.utff none, .star (.name R.utfw none)]) (rest := [.name R.sp none, .act 87]) hp1 h hx hR3 S.ident
  obtain ⟨p3, ev3, hp3, rfl, h, hx⟩ := seq_tok hp2 h hx hR4
  obtain ⟨ev4, txt, h, ht, hx⟩ := seq_act h hx
  obtain ⟨-, -, rfl⟩ := seq_end h hx
  cases ht h0
  exact ⟨_, _, rfl, .str, fun _ => rfl⟩

def msgAlts : List (Exp × PExp) := [
  (sequ [.open, .name R.utff none, .star (choice [.name R.utfw none, .cls [0x2E, 0x3A]]), .plus (.name R.utfw none), .opt (.chr 0x3F), .close, .act 88],
    .cap (.seq Peg.utff (.seq (.star (.alt Peg.utfw (Peg.cls [(46, 46), (58, 58)]))) (.seq (Peg.plus1 Peg.utfw) (Peg.opt (Peg.tok "?")))))),
  (sequ [.open, .name R.utff none, .star (.name R.utfw none), .opt (.chr 0x3F), .close, .act 89],
    .cap (.seq Peg.utff (.seq (.star Peg.utfw) (Peg.opt (Peg.tok "?")))))]

theorem S.msgc : Same (.cls [0x2E, 0x3A]) (Peg.cls [(46, 46), (58, 58)]) := .norm 0 (by decide +kernel)

theorem msgAlts_same : ∀ x ∈ msgAlts, Same x.1 x.2 := by
  simp only [msgAlts, List.forall_mem_cons]
  exact ⟨Same.to (.op (.seq S.utff (.seq (.star (.alt S.utfw (.alt1 S.msgc))) (.seq (.plus S.utfw) (.last (.opt (.chr rfl)) (.cl (.act .eps))))))),
    Same.to (.op (.seq S.utff (.seq (.star S.utfw) (.last (.opt (.chr rfl)) (.cl (.act .eps)))))), by simp⟩

theorem S.msg {v} : Same (.name R.msg v) Peg.msg := .name rfl (.choice (ps := msgAlts) (by decide) msgAlts_same)

theorem text_dv {es : List Exp} {q} {a : Nat} (hs : Same (sequ es) q) (ha : ∀ t env y, runAct a t env y = ret (.str t) env y)
    (hq : (sequ es).quiet isQuiet = true) (hn : (sequ es).null (nulOf potionNul) = false) : Dv P inp f (sequ (.open :: es ++ [.close, .act a]), .cap q) := by
  intro r pos m p evs m' t i env envs y s' hp h hR hx
  obtain ⟨p2, ev2, hp2, rfl, rfl, h0, h, hx⟩ := seq_cap hp h hx hR hs hq hn
  obtain ⟨ev4, txt, h, ht, hx⟩ := seq_act h hx
  obtain ⟨-, -, rfl⟩ := seq_end h hx
  cases ht h0
  rw [ha]
  exact ⟨_, _, rfl, .str, fun _ => rfl⟩

theorem msg_ok : Rl P inp f R.msg Peg.msg := by
  refine alts_ok msgAlts (by decide) rfl rfl msgAlts_same ?_
  simp only [msgAlts, List.forall_mem_cons]
  exact ⟨text_dv (es := [.name R.utff none, .star (choice [.name R.utfw none, .cls [0x2E, 0x3A]]), .plus (.name R.utfw none), .opt (.chr 0x3F)])
    (.seq S.utff (.seq (.star (.alt S.utfw (.alt1 S.msgc))) (.seq (.plus S.utfw) (.last (.opt (.chr rfl)) .eps)))) (fun _ _ _ => rfl) (by decide +kernel) (by decide +kernel),
    text_dv (es := [.name R.utff none, .star (.name R.utfw none), .opt (.chr 0x3F)])
    (.seq S.utff (.seq (.star S.utfw) (.last (.opt (.chr rfl)) .eps))) (fun _ _ _ => rfl) (by decide +kernel) (by decide +kernel), by simp⟩

/-! ### Unquoted words -/

def unqPart : Exp := sequ [.not (.name R.unq_sep none), .not (.name R.lick_end none), .name R.unq_char none]
def unqQ : PExp := .seq (.not (.seq Peg.sep (.seq (.not (Peg.tok "{")) (.seq (.not (Peg.tok "[")) (.not (Peg.tok "("))))))
      (.seq (.not Peg.lickEnd) (.nt .unqChar))

theorem S.unq : Same unqPart unqQ :=
  .seq (.not (.name rfl (.seq S.sep (.seq (.not (.chr rfl)) (.seq (.not (.chr rfl)) (.last (.not (.chr rfl)) .eps)))))) (.seq (.not S.lickEnd) (.last (.nt rfl) .eps))

theorem S.unquoted {v} : Same (.name R.unquoted v) (.cap (Peg.plus1 unqQ)) := .name rfl (Same.to (.op (.last (.plus S.unq) (.cl (.act .eps)))))

theorem unquoted_ok : Rl P inp f R.unquoted (.cap (Peg.plus1 unqQ)) := by
  intro ru pos m p evs m' t i env envs y s' hr hp h hR hx
  cases hr
  exact text_dv (es := [.plus unqPart]) (.last (.plus S.unq) .eps) (fun _ _ _ => rfl) (by decide +kernel) (by decide +kernel) hp h hR hx

def looseAlts : List (Exp × PExp) := [(.name R.value_ none, .nt .value), (sequ [.name R.unquoted (some 0), .act 80], .act (Peg.ast .value) (.cap (Peg.plus1 unqQ)))]

theorem loose_ok (H : All P inp f) : Rl P inp f R.loose (Peg.rule .loose) := by
  refine alts_ok looseAlts (by decide) rfl rfl ?_ ?_
  · simp only [looseAlts, List.forall_mem_cons]
    exact ⟨.nt rfl, Same.to (.last S.unquoted (.act .eps)), by simp⟩
  · simp only [looseAlts, List.forall_mem_cons]
    refine ⟨Dv.name (H _ _ rfl (by decide)), ?_, by simp⟩
    intro r pos m p evs m' t i env envs y s' hp h hR hx
    obtain ⟨t1, hR1, rfl⟩ := hR.act
    obtain ⟨p2, m2, ev3, y1, hp2, rfl, hy1, h, hx⟩ := seq_name unquoted_ok hp h hx hR1 S.unquoted
    obtain ⟨ev4, txt, h, _, hx⟩ := seq_act h hx
    obtain ⟨-, -, rfl⟩ := seq_end h hx
    exact ⟨_, _, rfl, .ast1 hy1.1, fun hc => hy1.2 hc.inv.1⟩

/-! ### Tuples, closures -/

theorem tuple_ok (H : All P inp f) : Rl P inp f R.tuple (Peg.rule .tuple) := by
  intro ru pos m p evs m' t i env envs y s' hr hp h hR hx
  cases hr
  obtain ⟨t1, hR1, rfl⟩ := R.act hR
  obtain ⟨x, i1, z, hR2, hR3, rfl⟩ := hR1.seq
  obtain ⟨p1, m1, ev1, y1, hp1, rfl, hy1, h, hx⟩ := seq_name msg_ok hp h hx hR2 S.msg
  obtain ⟨p2, m2, ev2, y2, hp2, rfl, hy2, h, hx⟩ := seq_name (H R.lick .lick rfl (by decide)) hp1 h hx hR3
  obtain ⟨ev4, txt, h, _, hx⟩ := seq_act h hx
  obtain ⟨-, -, rfl⟩ := seq_end h hx
  refine ⟨_, _, rfl, .ast2 (.ast1 hy1.1) hy2.1, fun hc => ?_⟩
  show y2.2.failed = _
  rw [hy2.2 hc.inv.2.1, hy1.2 hc.inv.1.inv.1]

theorem closure_ok (H : All P inp f) : Rl P inp f R.closure (Peg.rule .closure) := by
  intro ru pos m p evs m' t i env envs y s' hr hp h hR hx
  cases hr
  obtain ⟨t1, hR1, rfl⟩ := R.act hR
  obtain ⟨x, i1, z, hR2, hR3, rfl⟩ := hR1.seq
  obtain ⟨p1, ev1, m1, ev2, h1, h2, rfl⟩ := seq_inv h
  obtain ⟨s1, hx1, hx2⟩ := runs_app hx
  have key : ∃ env' y', s1 = (env' :: envs, y') ∧ i1 = inp.drop p1 ∧ Fits x (env' 1).1 ∧ (Clean x → y'.2.failed = y.2.failed) := by
    rcases opt_inv (.nt rfl) h1 hR2 with ⟨h3, hR4⟩ | ⟨rfl, rfl, hR4⟩
    · obtain ⟨y1, hy, rfl⟩ := name_step (H R.list_ .list rfl (by decide)) hp h3 hR4 hx1
      exact ⟨_, _, rfl, same_some (.nt rfl) h3 hR4, hy.1, hy.2⟩
    · obtain ⟨t1, hR5, rfl⟩ := hR4.act
      cases hR5.eps
      cases hx1
      exact ⟨_, _, rfl, rfl, .stale, fun _ => rfl⟩
  obtain ⟨env', y', rfl, rfl, hk⟩ := key
  obtain ⟨p2, m2, ev3, y2, hp2, rfl, hy2, h, hx⟩ := seq_name (H R.block_ .block rfl (by decide)) ((moves h1).2 hp) h2 hx2 hR3
  obtain ⟨ev4, txt, h, _, hx⟩ := seq_act h hx
  obtain ⟨-, -, rfl⟩ := seq_end h hx
  refine ⟨_, _, rfl, .ast2 hk.1 hy2.1, fun hc => ?_⟩
  show y2.2.failed = _
  rw [hy2.2 hc.inv.2.1, hk.2 hc.inv.1]

/-! ### Names -/

def nameAlts2 : List (Exp × PExp) := [
  (sequ [.name R.msg (some 1), .name R.sp none, .act 67], .act (Peg.ast .query) (Peg.left Peg.msg Peg.ws)),
  (sequ [.name R.path_ (some 2), .act 68], .act (Peg.ast .pathq) Peg.path)]

def nameAlts : List (Exp × PExp) := [
  (sequ [.name R.path_ (some 2), .act 66], .act (Peg.ast .path) Peg.path),
  (sequ [.name R.quiz none, choice (nameAlts2.map (·.1))], Peg.right Peg.quiz (Peg.alts (nameAlts2.map (·.2)))),
  (sequ [.name R.tuple (some 0), .name R.sp none, .act 69], .act (Peg.ast .value) (Peg.left (.nt .tuple) Peg.ws)),
  (sequ [.not (.name R.keyword none), .name R.msg (some 1), .name R.sp none, .act 70], .act (Peg.ast .msg) (Peg.right (.not Peg.keyword) (Peg.left Peg.msg Peg.ws)))]

theorem nameAlts2_same : ∀ x ∈ nameAlts2, Same x.1 x.2 := by
  simp only [nameAlts2, List.forall_mem_cons]
  exact ⟨Same.to (.seq S.msg (.last S.sp (.act .eps))), Same.to (.last S.path (.act .eps)), by simp⟩

theorem nameAlts_same : ∀ x ∈ nameAlts, Same x.1 x.2 := by
  simp only [nameAlts, List.forall_mem_cons]
  exact ⟨Same.to (.last S.path (.act .eps)), Same.to (.seq S.quiz (.last (.choice (by decide) nameAlts2_same) .eps)),
    Same.to (.seq (.nt rfl) (.last S.sp (.act .eps))), Same.to (.seq (.not S.keyword) (.seq S.msg (.last S.sp (.act .eps)))), by simp⟩

/-- `v:b { $$ = PN_AST(k, v) }` -/
theorem dv1 {b v a : Nat} {q : PExp} {k : Kind} (H : Rl P inp f b q) (hb : Same (.name b (some v)) q) (ha : ∀ t env y, runAct a t env y = ret (ast1 k (env v).1) env y) :
    Dv P inp f (sequ [.name b (some v), .act a], .act (Peg.ast k) q) := by
  intro r pos m p evs m' t i env envs y s' hp h hR hx
  obtain ⟨t1, hR1, rfl⟩ := hR.act
  obtain ⟨p2, m2, ev3, y1, hp2, rfl, hy1, h, hx⟩ := seq_name H hp h hx hR1 hb
  obtain ⟨ev4, txt, h, _, hx⟩ := seq_act h hx
  obtain ⟨-, -, rfl⟩ := seq_end h hx
  rw [ha]
  refine ⟨_, _, rfl, ?_, fun hc => hy1.2 hc.inv.1⟩
  simp only [asg, if_true, ret]
  exact .ast1 hy1.1

/-- `v:b - { $$ = PN_AST(k, v) }` -/
theorem dv2 {b v a : Nat} {q : PExp} {k : Kind} (H : Rl P inp f b q) (hb : Same (.name b (some v)) q) (ha : ∀ t env y, runAct a t env y = ret (ast1 k (env v).1) env y) :
    Dv P inp f (sequ [.name b (some v), .name R.sp none, .act a], .act (Peg.ast k) (Peg.left q Peg.ws)) := by
  intro r pos m p evs m' t i env envs y s' hp h hR hx
  obtain ⟨t1, hR1, rfl⟩ := hR.act
  obtain ⟨_, i1, hR2, hR3⟩ := hR1.left
  obtain ⟨p2, m2, ev3, y1, hp2, rfl, hy1, h, hx⟩ := seq_name H hp h hx hR2 hb
  obtain ⟨p3, ev5, hp3, rfl, h, hx⟩ := seq_tok hp2 h hx hR3
  obtain ⟨ev4, txt, h, _, hx⟩ := seq_act h hx
  obtain ⟨-, -, rfl⟩ := seq_end h hx
  rw [ha]
  refine ⟨_, _, rfl, ?_, fun hc => hy1.2 hc.inv.1⟩
  simp only [asg, if_true, ret]
  exact .ast1 hy1.1

theorem name_ok (H : All P inp f) : Rl P inp f R.name_ (Peg.rule .name) := by
  refine alts_ok nameAlts (by decide) rfl rfl nameAlts_same ?_
  simp only [nameAlts, List.forall_mem_cons]
  refine ⟨dv1 path_ok S.path fun _ _ _ => rfl, ?_, dv2 (H R.tuple .tuple rfl (by decide)) (.nt rfl) fun _ _ _ => rfl, ?_, by simp⟩
  · intro r pos m p evs m' t i env envs y s' hp h hR hx
    obtain ⟨_, i1, hR1, hR2⟩ := hR.right
    obtain ⟨p1, ev1, hp1, rfl, h, hx⟩ := seq_tok hp h hx hR1
    obtain ⟨p2, ev2, m2, ev3, h1, h2, rfl⟩ := seq_inv h
    obtain ⟨s1, hx1, hx2⟩ := runs_app hx
    obtain ⟨-, -, rfl⟩ := seq_end h2 hx2
    obtain ⟨w, hw, m4, h7, hR4⟩ := alts_inv (by decide) nameAlts2_same h1 hR2
    have hd : ∀ w ∈ nameAlts2, Dv P inp f w := by
      simp only [nameAlts2, List.forall_mem_cons]
      exact ⟨dv2 msg_ok S.msg fun _ _ _ => rfl, dv1 path_ok S.path fun _ _ _ => rfl, by simp⟩
    exact hd w hw hp1 h7 hR4 hx1
  · intro r pos m p evs m' t i env envs y s' hp h hR hx
    obtain ⟨t1, hR1, rfl⟩ := hR.act
    obtain ⟨_, i1, hR2, hR3⟩ := hR1.right
    obtain ⟨_, i2, hR4, hR5⟩ := hR3.left
    obtain ⟨p1, ev1, hp1, rfl, h, hx⟩ := seq_tok hp h hx hR2 (by decide +kernel) (.not S.keyword)
    obtain ⟨p2, m2, ev3, y1, hp2, rfl, hy1, h, hx⟩ := seq_name msg_ok hp1 h hx hR4 S.msg
    obtain ⟨p3, ev5, hp3, rfl, h, hx⟩ := seq_tok hp2 h hx hR5
    obtain ⟨ev4, txt, h, _, hx⟩ := seq_act h hx
    obtain ⟨-, -, rfl⟩ := seq_end h hx
    exact ⟨_, _, rfl, .ast1 hy1.1, fun hc => hy1.2 hc.inv.1⟩

end
end Potion.Greg
