import Verif.Proof.GregActs5
namespace Potion.Greg
open Potion.Peg (PExp NT Tree Kind)

section
variable {P : Nat → List Byte → Bool} {inp : List Byte} {f : Nat}
local notation "Ev'" => Eval potionGrammar P inp
local notation "Run'" => Runs runAct inp
variable {r : Nat} {pos p : Nat} {m m' : Marks} {evs : List Ev} {env : Env} {envs : List Env} {y : Val} {s s' : List Env × Val} {t : Tree} {i : List Byte} {q : PExp}

/-! ### Licks -/

def lickAlts : List (Exp × PExp) := [
  (sequ [.name R.msg (some 2), .name R.sp none, .name R.list_ (some 1), .name R.loose (some 0), .act 74],
    .act (fun | .pair m (.pair t v) => .node .lick m v t | v => v) (.seq (Peg.left Peg.msg Peg.ws) (.seq (.nt .list) (.nt .loose)))),
  (sequ [.name R.msg (some 2), .name R.sp none, .name R.list_ (some 1), .act 75],
    .act (fun | .pair m t => .node .lick m .nil t | v => v) (.seq (Peg.left Peg.msg Peg.ws) (.nt .list))),
  (sequ [.name R.msg (some 2), .name R.sp none, .name R.loose (some 0), .name R.list_ (some 1), .act 76],
    .act (fun | .pair m (.pair v t) => .node .lick m v t | v => v) (.seq (Peg.left Peg.msg Peg.ws) (.seq (.nt .loose) (.nt .list)))),
  (sequ [.name R.msg (some 2), .name R.sp none, .name R.loose (some 0), .act 77],
    .act (fun | .pair m v => Peg.ast2 .lick m v | v => v) (.seq (Peg.left Peg.msg Peg.ws) (.nt .loose))),
  (sequ [.name R.msg (some 2), .name R.sp none, .act 78], .act (Peg.ast .lick) (Peg.left Peg.msg Peg.ws)),
  (sequ [.name R.loose (some 0), .name R.sp none, .act 79], .act (Peg.ast .lick) (Peg.left (.nt .loose) Peg.ws))]

theorem lickAlts_same : ∀ x ∈ lickAlts, Same x.1 x.2 := by
  simp only [lickAlts, List.forall_mem_cons]
  exact ⟨Same.to (.seq2 S.msg S.sp (.seq (.nt rfl) (.last (.nt rfl) (.act .eps)))), Same.to (.seq2 S.msg S.sp (.last (.nt rfl) (.act .eps))),
    Same.to (.seq2 S.msg S.sp (.seq (.nt rfl) (.last (.nt rfl) (.act .eps)))), Same.to (.seq2 S.msg S.sp (.last (.nt rfl) (.act .eps))),
    Same.to (.seq S.msg (.last S.sp (.act .eps))), Same.to (.seq (.nt rfl) (.last S.sp (.act .eps))), by simp⟩

theorem lickItem_ok (H : All P inp f) : Rl P inp f R.lick_item (Peg.rule .lickItem) := by
  refine alts_ok lickAlts (by decide) rfl rfl lickAlts_same ?_
  simp only [lickAlts, List.forall_mem_cons]
  refine ⟨?_, ?_, ?_, ?_, dv2 msg_ok S.msg fun _ _ _ => rfl, dv2 (H R.loose .loose rfl (by decide)) (.nt rfl) fun _ _ _ => rfl, by simp⟩
  · intro r pos m p evs m' t i env envs y s' hp h hR hx
    obtain ⟨t1, hR1, rfl⟩ := hR.act
    obtain ⟨t2, i1, t3, hR2, hR3, rfl⟩ := hR1.seq
    obtain ⟨_, i2, hR4, hR5⟩ := hR2.left
    obtain ⟨t4, i3, t5, hR6, hR7, rfl⟩ := hR3.seq
    obtain ⟨p1, m1, ev1, y1, hp1, rfl, hy1, h, hx⟩ := seq_name msg_ok hp h hx hR4 S.msg
    obtain ⟨p2, ev2, hp2, rfl, h, hx⟩ := seq_tok hp1 h hx hR5
    obtain ⟨p3, m3, ev3, y3, hp3, rfl, hy3, h, hx⟩ := seq_name (H R.list_ .list rfl (by decide)) hp2 h hx hR6
    obtain ⟨p4, m4, ev4, y4, hp4, rfl, hy4, h, hx⟩ := seq_name (H R.loose .loose rfl (by decide)) hp3 h hx hR7
    obtain ⟨ev5, txt, h, _, hx⟩ := seq_act h hx
    obtain ⟨-, -, rfl⟩ := seq_end h hx
    refine ⟨_, _, rfl, .node hy1.1 hy4.1 hy3.1, fun hc => ?_⟩
    show y4.2.failed = _
    rw [hy4.2 hc.inv.2.1, hy3.2 hc.inv.2.2, hy1.2 hc.inv.1]
  · intro r pos m p evs m' t i env envs y s' hp h hR hx
    obtain ⟨t1, hR1, rfl⟩ := hR.act
    obtain ⟨t2, i1, t3, hR2, hR3, rfl⟩ := hR1.seq
    obtain ⟨_, i2, hR4, hR5⟩ := hR2.left
    obtain ⟨p1, m1, ev1, y1, hp1, rfl, hy1, h, hx⟩ := seq_name msg_ok hp h hx hR4 S.msg
    obtain ⟨p2, ev2, hp2, rfl, h, hx⟩ := seq_tok hp1 h hx hR5
    obtain ⟨p3, m3, ev3, y3, hp3, rfl, hy3, h, hx⟩ := seq_name (H R.list_ .list rfl (by decide)) hp2 h hx hR3
    obtain ⟨ev5, txt, h, _, hx⟩ := seq_act h hx
    obtain ⟨-, -, rfl⟩ := seq_end h hx
    refine ⟨_, _, rfl, .node hy1.1 .nil hy3.1, fun hc => ?_⟩
    show y3.2.failed = _
    rw [hy3.2 hc.inv.2.2, hy1.2 hc.inv.1]
  · intro r pos m p evs m' t i env envs y s' hp h hR hx
    obtain ⟨t1, hR1, rfl⟩ := hR.act
    obtain ⟨t2, i1, t3, hR2, hR3, rfl⟩ := hR1.seq
    obtain ⟨_, i2, hR4, hR5⟩ := hR2.left
    obtain ⟨t4, i3, t5, hR6, hR7, rfl⟩ := hR3.seq
    obtain ⟨p1, m1, ev1, y1, hp1, rfl, hy1, h, hx⟩ := seq_name msg_ok hp h hx hR4 S.msg
    obtain ⟨p2, ev2, hp2, rfl, h, hx⟩ := seq_tok hp1 h hx hR5
    obtain ⟨p3, m3, ev3, y3, hp3, rfl, hy3, h, hx⟩ := seq_name (H R.loose .loose rfl (by decide)) hp2 h hx hR6
    obtain ⟨p4, m4, ev4, y4, hp4, rfl, hy4, h, hx⟩ := seq_name (H R.list_ .list rfl (by decide)) hp3 h hx hR7
    obtain ⟨ev5, txt, h, _, hx⟩ := seq_act h hx
    obtain ⟨-, -, rfl⟩ := seq_end h hx
    refine ⟨_, _, rfl, .node hy1.1 hy3.1 hy4.1, fun hc => ?_⟩
    show y4.2.failed = _
    rw [hy4.2 hc.inv.2.2, hy3.2 hc.inv.2.1, hy1.2 hc.inv.1]
  · intro r pos m p evs m' t i env envs y s' hp h hR hx
    obtain ⟨t1, hR1, rfl⟩ := hR.act
    obtain ⟨t2, i1, t3, hR2, hR3, rfl⟩ := hR1.seq
    obtain ⟨_, i2, hR4, hR5⟩ := hR2.left
    obtain ⟨p1, m1, ev1, y1, hp1, rfl, hy1, h, hx⟩ := seq_name msg_ok hp h hx hR4 S.msg
    obtain ⟨p2, ev2, hp2, rfl, h, hx⟩ := seq_tok hp1 h hx hR5
    obtain ⟨p3, m3, ev3, y3, hp3, rfl, hy3, h, hx⟩ := seq_name (H R.loose .loose rfl (by decide)) hp2 h hx hR3
    obtain ⟨ev5, txt, h, _, hx⟩ := seq_act h hx
    obtain ⟨-, -, rfl⟩ := seq_end h hx
    refine ⟨_, _, rfl, .ast2 hy1.1 hy3.1, fun hc => ?_⟩
    show y3.2.failed = _
    rw [hy3.2 hc.inv.2.1, hy1.2 hc.inv.1]

/-! ### Messages -/

theorem name_form (h : R f (.nt .name) i (some (t, i2))) : ∃ k a, t = Peg.ast k a := by
  obtain ⟨f', _, h⟩ := h.nt
  have h : R f' (Peg.alts (nameAlts.map (·.2))) i (some (t, i2)) := h
  rcases h.alt with ⟨z, e, h⟩ | ⟨_, h⟩
  · cases e; obtain ⟨_, _, rfl⟩ := h.act; exact ⟨_, _, rfl⟩
  rcases h.alt with ⟨z, e, h⟩ | ⟨_, h⟩
  · cases e
    obtain ⟨_, _, _, h⟩ := h.right
    rcases h.alt with ⟨z, e, h⟩ | ⟨_, h⟩
    · cases e; obtain ⟨_, _, rfl⟩ := h.act; exact ⟨_, _, rfl⟩
    · obtain ⟨_, _, rfl⟩ := h.act; exact ⟨_, _, rfl⟩
  rcases h.alt with ⟨z, e, h⟩ | ⟨_, h⟩
  · cases e; obtain ⟨_, _, rfl⟩ := h.act; exact ⟨_, _, rfl⟩
  · obtain ⟨_, _, rfl⟩ := h.act; exact ⟨_, _, rfl⟩

theorem Fits.ast_inv {k a v} (h : Fits (Peg.ast k a) v) : ∃ a', v = .node k a' .nil .nil ∧ Fits a a' := by
  cases h with | node h1 h2 h3 => cases h2; cases h3; exact ⟨_, rfl, h1⟩

theorem Clean.ast {k a} (h : Clean a) : Clean (Peg.ast k a) := .node h .imm .imm (by intro n l h; cases h)

theorem S.orNil {e q} (h : Same e q) : Same (.opt e) (Peg.orNil q) := (Same.opt h).to

/-- An optional part, assigned to a variable. -/
theorem opt_var {e : Exp} {v : Nat} (hs : Same e q) (hp : pos ≤ inp.length) (h : Ev' r (.opt e) pos m (.ok p evs m')) (hR : R f (Peg.orNil q) (inp.drop pos) (some (t, i)))
    (hx : Run' evs (env :: envs, y) s') (h0 : (env v).1 = .nil)
    (hd : ∀ {s' t i}, Ev' r e pos m (.ok p evs m') → R f q (inp.drop pos) (some (t, i)) → Run' evs (env :: envs, y) s' → ∃ y', s' = (asg env (some v) y' :: envs, y') ∧ Ok t y y') :
    ∃ env' y', s' = (env' :: envs, y') ∧ i = inp.drop p ∧ Fits t (env' v).1 ∧ (∀ j, j ≠ v → env' j = env j) ∧ (Clean t → y'.2.failed = y.2.failed) := by
  rcases opt_inv hs h hR with ⟨h3, hR4⟩ | ⟨rfl, rfl, hR4⟩
  · obtain ⟨y', rfl, hy⟩ := hd h3 hR4 hx
    refine ⟨_, _, rfl, same_some hs h3 hR4, ?_, ?_, hy.2⟩
    · simp only [asg, if_true]; exact hy.1
    · intro j hj; simp only [asg, if_neg hj]
  · obtain ⟨t1, hR5, rfl⟩ := hR4.act
    cases hR5.eps
    cases hx
    exact ⟨_, _, rfl, rfl, by rw [h0]; exact .nil, fun _ _ => rfl, fun _ => rfl⟩

theorem alt_name {b b' v : Nat} {n n' : NT} (H : Rl P inp f b (.nt n)) (H' : Rl P inp f b' (.nt n')) (hb : ntOf b = some n) (hb' : ntOf b' = some n')
    (hp : pos ≤ inp.length) (h : Ev' r (choice [.name b (some v), .name b' (some v)]) pos m (.ok p evs m')) (hR : R f (.alt (.nt n) (.nt n')) (inp.drop pos) (some (t, i)))
    (hx : Run' evs (env :: envs, y) s') : ∃ y', s' = (asg env (some v) y' :: envs, y') ∧ Ok t y y' := by
  obtain ⟨w, hw, m4, h7, hR4⟩ := alts_inv (ps := [(.name b (some v), .nt n), (.name b' (some v), .nt n')]) (by simp)
    (by simp only [List.forall_mem_cons]; exact ⟨.nt hb, .nt hb', by simp⟩) h hR
  simp only [List.mem_cons, List.not_mem_nil, or_false] at hw
  rcases hw with rfl | rfl
  · obtain ⟨y1, hy, rfl⟩ := name_step H hp h7 hR4 hx
    exact ⟨_, rfl, hy⟩
  · obtain ⟨y1, hy, rfl⟩ := name_step H' hp h7 hR4 hx
    exact ⟨_, rfl, hy⟩

def callA : Exp := sequ [.name R.name_ (some 2), .act 60, .opt (choice [.name R.value_ (some 1), .name R.list_ (some 1)]), .opt (choice [.name R.block_ (some 0), .name R.closure (some 0)])]
def callB : Exp := sequ [choice [.name R.value_ (some 1), .name R.list_ (some 1)], .act 61, .opt (.name R.block_ (some 0))]
def callQA : PExp := .seq (.nt .name) (.seq (Peg.orNil (.alt (.nt .value) (.nt .list))) (Peg.orNil (.alt (.nt .block) (.nt .closure))))
def callQB : PExp := match Peg.rule .call with
  | .act _ (.alt _ b) => b
  | b => b

theorem S.two {b b' n n' v} (hb : ntOf b = some n) (hb' : ntOf b' = some n') : Same (choice [.name b v, .name b' v]) (.alt (.nt n) (.nt n')) := .alt (.nt hb) (.alt1 (.nt hb'))
theorem S.callA : Same callA callQA := .seq (.nt rfl) (.act (.seq (S.orNil (S.two rfl rfl)) (.last (S.orNil (S.two rfl rfl)) .eps)))
theorem S.callB : Same callB callQB := Same.to (q := .seq (.alt (.nt .value) (.nt .list)) (Peg.orNil (.nt .block))) (.seq (S.two rfl rfl) (.act (.last (S.orNil (.nt rfl)) .eps)))

theorem call_ok (H : All P inp f) : Rl P inp f R.call_ (Peg.rule .call) := by
  intro ru pos m p evs m' t i env envs y s' hr hp h hR hx
  cases hr
  obtain ⟨t0, hR0, rfl⟩ := R.act hR
  obtain ⟨p1, ev1, m1, ev2, h1, h2, rfl⟩ := seq_inv h
  obtain ⟨s1, hx1, hx2⟩ := runs_app hx
  have key : ∃ env' y' k a v b, s1 = (env' :: envs, y') ∧ t0 = .pair (Peg.ast k a) (.pair v b) ∧ Fits (Peg.ast k a) (env' 2).1 ∧ Fits v (env' 1).1 ∧ Fits b (env' 0).1 ∧
      (Clean a → Clean v → Clean b → y'.2.failed = y.2.failed) := by
    obtain ⟨w, hw, m4, h7, hR4⟩ := alts_inv (ps := [(callA, callQA), (callB, callQB)]) (by simp)
      (by simp only [List.forall_mem_cons]; exact ⟨S.callA, S.callB, by simp⟩) h1 hR0
    simp only [List.mem_cons, List.not_mem_nil, or_false] at hw
    rcases hw with rfl | rfl
    · obtain ⟨n, i1, tl, hR1, hR2, rfl⟩ := hR4.seq
      obtain ⟨v, i2, b, hR3, hR5, rfl⟩ := hR2.seq
      obtain ⟨k, a, rfl⟩ := name_form hR1
      obtain ⟨p2, m2, ev3, y1, hp2, rfl, hy1, h8, hx3⟩ := seq_name (H R.name_ .name rfl (by decide)) hp h7 hx1 hR1
      obtain ⟨ev4, txt, h9, _, hx4⟩ := seq_act h8 hx3
      obtain ⟨p3, ev5, m3, ev6, h10, h11, rfl⟩ := seq_inv h9
      obtain ⟨s2, hx5, hx6⟩ := runs_app hx4
      obtain ⟨env2, y2, rfl, rfl, hv, he2, hc2⟩ := opt_var (v := 1) (S.two rfl rfl) hp2 h10 hR3 hx5 rfl
        fun h hR hx => alt_name (H R.value_ .value rfl (by decide)) (H R.list_ .list rfl (by decide)) rfl rfl hp2 h hR hx
      have hp3 := (moves h10).2 hp2
      obtain ⟨p4, ev7, m5, ev8, h12, h13, rfl⟩ := seq_inv h11
      obtain ⟨s3, hx7, hx8⟩ := runs_app hx6
      obtain ⟨env3, y3, rfl, rfl, hb, he3, hc3⟩ := opt_var (v := 0) (S.two rfl rfl) hp3 h12 hR5 hx7 (by rw [he2 0 (by decide)]; rfl)
        fun h hR hx => alt_name (H R.block_ .block rfl (by decide)) (H R.closure .closure rfl (by decide)) rfl rfl hp3 h hR hx
      obtain ⟨-, -, rfl⟩ := seq_end h13 hx8
      refine ⟨_, _, _, _, _, _, rfl, rfl, ?_, ?_, hb, fun h1 h2 h3 => ?_⟩
      · rw [he3 2 (by decide), he2 2 (by decide)]; exact hy1.1
      · rw [he3 1 (by decide)]; exact hv
      · rw [hc3 h3, hc2 h2]; exact hy1.2 h1.ast
    · obtain ⟨t9, hR9, rfl⟩ := R.act hR4
      obtain ⟨v, i2, b, hR3, hR5, rfl⟩ := hR9.seq
      obtain ⟨p3, ev5, m3, ev6, h10, h11, rfl⟩ := seq_inv h7
      obtain ⟨s2, hx5, hx6⟩ := runs_app hx1
      obtain ⟨y1, rfl, hy1⟩ := alt_name (H R.value_ .value rfl (by decide)) (H R.list_ .list rfl (by decide)) rfl rfl hp h10 hR3 hx5
      cases same_some (S.two rfl rfl) h10 hR3
      have hp3 := (moves h10).2 hp
      obtain ⟨ev4, txt, h9, _, hx4⟩ := seq_act h11 hx6
      obtain ⟨p4, ev7, m5, ev8, h12, h13, rfl⟩ := seq_inv h9
      obtain ⟨s3, hx7, hx8⟩ := runs_app hx4
      obtain ⟨env3, y3, rfl, rfl, hb, he3, hc3⟩ := opt_var (v := 0) (.nt rfl) hp3 h12 hR5 hx7 rfl
        fun h hR hx => by
          obtain ⟨y1, hy, rfl⟩ := name_step (H R.block_ .block rfl (by decide)) hp3 h hR hx
          exact ⟨_, rfl, hy⟩
      obtain ⟨-, -, rfl⟩ := seq_end h13 hx8
      refine ⟨_, _, _, _, _, _, rfl, rfl, ?_, ?_, hb, fun h1 h2 h3 => ?_⟩
      · rw [he3 2 (by decide)]; exact .ast1 .nil
      · rw [he3 1 (by decide)]; exact hy1.1
      · rw [hc3 h3]; exact hy1.2 h2
  obtain ⟨env', y', k, a, v, b, rfl, rfl, hn, hv, hb, hc⟩ := key
  obtain ⟨ev4, txt, h9, _, hx4⟩ := seq_act h2 hx2
  obtain ⟨-, -, rfl⟩ := seq_end h9 hx4
  obtain ⟨a', e1, ha'⟩ := hn.ast_inv
  refine ⟨_, _, rfl, ?_, fun h => hc h.inv.1 h.inv.2.1 h.inv.2.2⟩
  show Fits (.node k a v b) (setArgs (env' 2).1 (env' 1).1 (env' 0).1)
  rw [e1]
  exact .node ha' hv hb

/-! ### Arguments of `extern` -/

theorem S.argName {v} : Same (.name R.arg_name v) Peg.argName := .name rfl (Same.to (.op (.seq2 S.utff (.star S.utfw) (.cl (.last S.sp (.act .eps))))))
theorem S.argModifier {v} : Same (.name R.arg_modifier v) Peg.argModifier :=
  .name rfl (Same.to (.op (.last (.alt (.chr rfl) (.alt (.chr rfl) (.alt1 (.chr rfl)))) (.cl (.act .eps)))))
theorem S.argTypes : Same (.cls [0x4E, 0x42, 0x49, 0x44, 0x53, 0x26, 0x6F, 0x54, 0x61, 0x75, 0x62, 0x6E, 0x73, 0x46, 0x50, 0x6C, 0x6B, 0x66, 0x74, 0x78, 0x72, 0x63, 0x64, 0x6D])
    (.chr fun b => b ∈ Peg.ascii "NBIDS&oTaubnsFPlkftxrcdm") := .norm 0 (by decide +kernel)
theorem S.argType {v} : Same (.name R.arg_type v) Peg.argType := .name rfl (Same.to (.op (.seq S.argTypes (.cl (.last S.sp (.act .eps))))))
theorem S.argRest {v} : Same (.name R.arg_rest v) (.act (fun _ => .tup [.imm (pnNum 46)]) (Peg.t1 "...")) := .name rfl (Same.to (.seq (.str rfl) (.last S.sp (.act .eps))))
theorem S.arg {v} : Same (.name R.arg v) Peg.arg :=
  .name rfl (.alt (Same.to (.seq S.argModifier (.seq S.argName (.seq S.assign (.last S.argType (.act .eps))))))
    (.alt (Same.to (.seq S.argModifier (.last S.argName (.act .eps))))
    (.alt (Same.to (.seq S.argName (.seq S.assign (.last S.argType (.act .eps)))))
    (.alt (Same.to (.seq S.argName (.seq S.defassign (.last (.nt rfl) (.act .eps)))))
    (.alt (Same.to (.last S.argName (.act .eps)))
    (.alt1 S.argRest))))))
theorem S.argSet {v} : Same (.name R.arg_set v) Peg.argSet := .name rfl (Same.to (.seq S.arg (.last (.star (Same.to (.seq2 S.comma S.sp (.last S.arg .eps)))) .eps)))
theorem S.optional {v} : Same (.name R.optional v) Peg.optional := .name rfl (Same.to (.seq (.chr rfl) (.last S.sp (.act .eps))))
theorem S.argList {v} : Same (.name R.arg_list v) Peg.argList :=
  .name rfl (.alt (Same.to (.seq S.argSet (.last (.opt (.seq S.optional (.last S.argSet .eps))) .eps))) (.alt1 (Same.to (.seq S.optional (.last S.argSet .eps)))))

def exAlts : List (Exp × PExp) := [
  (sequ [.str [0x65, 0x78, 0x74, 0x65, 0x72, 0x6E], .name R.sp none, .name R.name_ (some 1), .name R.list_start none, .act 63, .name R.arg_list (some 0), .name R.list_end none, .act 64],
    .act (fun | .pair n l => Peg.ast2 .msg Peg.externName (.tup [n, l]) | v => v)
        (Peg.right (Peg.t1 "extern") (.seq (Peg.left (.nt .name) Peg.listStart) (Peg.left Peg.argList Peg.listEnd)))),
  (sequ [.str [0x65, 0x78, 0x74, 0x65, 0x72, 0x6E], .name R.sp none, .name R.name_ (some 1), .act 65],
    .act (fun n => Peg.ast2 .msg Peg.externName (.tup [n])) (Peg.right (Peg.t1 "extern") (.nt .name)))]

theorem exAlts_same : ∀ x ∈ exAlts, Same x.1 x.2 := by
  simp only [exAlts, List.forall_mem_cons]
  exact ⟨Same.to (.seq2 (.str rfl) S.sp (.seq2 (.nt rfl) S.listStart (.act (.seq S.argList (.last S.listEnd (.act .eps)))))),
    Same.to (.seq2 (.str rfl) S.sp (.last (.nt rfl) (.act .eps))), by simp⟩

theorem extern_ok (H : All P inp f) : Rl P inp f R.extern_ (Peg.rule .extern) := by
  refine alts_ok exAlts (by decide) rfl rfl exAlts_same ?_
  simp only [exAlts, List.forall_mem_cons]
  refine ⟨?_, ?_, by simp⟩
  · intro r pos m p evs m' t i env envs y s' hp h hR hx
    obtain ⟨t1, hR1, rfl⟩ := hR.act
    obtain ⟨_, i1, hR2, hR3⟩ := hR1.right
    obtain ⟨_, i2, _, hR4, hR5, -⟩ := hR2.seq
    obtain ⟨n, i3, l, hR6, hR7, rfl⟩ := hR3.seq
    obtain ⟨_, i4, hR8, hR9⟩ := hR6.left
    obtain ⟨_, i5, hR10, hR11⟩ := hR7.left
    obtain ⟨p1, ev1, hp1, rfl, h, hx⟩ := seq_tok hp h hx hR4 rfl (.str rfl)
    obtain ⟨p2, ev2, hp2, rfl, h, hx⟩ := seq_tok hp1 h hx hR5
    obtain ⟨p3, m3, ev3, y3, hp3, rfl, hy3, h, hx⟩ := seq_name (H R.name_ .name rfl (by decide)) hp2 h hx hR8
    obtain ⟨p4, ev4, hp4, rfl, h, hx⟩ := seq_tok hp3 h hx hR9
    obtain ⟨ev5, txt, h, _, hx⟩ := seq_act h hx
    obtain ⟨p6, ev6, m6, ev7, h1, h2, rfl⟩ := seq_inv h
    obtain ⟨s2, hx1, hx2⟩ := runs_app hx
    obtain ⟨ru, ev8, h3, h4, rfl⟩ := name_inv h1
    obtain ⟨y4, -, rfl⟩ := run_name (K := fun _ => True) hx1 fun env0 s1 h5 => by
      obtain ⟨env', y', e⟩ := shape h4 _ _ _ rfl _ _ _ _ h5
      exact ⟨env', y', e, trivial⟩
    cases same_some S.argList h1 hR10
    obtain ⟨p7, ev9, hp7, rfl, h, hx⟩ := seq_tok ((moves h1).2 hp4) h2 hx2 hR11
    obtain ⟨ev10, txt, h, _, hx⟩ := seq_act h hx
    obtain ⟨-, -, rfl⟩ := seq_end h hx
    exact ⟨_, _, rfl, .extern hy3.1, fun hc => by cases hc with | node _ _ _ h => exact absurd rfl (h _ _)⟩
  · intro r pos m p evs m' t i env envs y s' hp h hR hx
    obtain ⟨t1, hR1, rfl⟩ := hR.act
    obtain ⟨_, i1, hR2, hR3⟩ := hR1.right
    obtain ⟨_, i2, _, hR4, hR5, -⟩ := hR2.seq
    obtain ⟨p1, ev1, hp1, rfl, h, hx⟩ := seq_tok hp h hx hR4 rfl (.str rfl)
    obtain ⟨p2, ev2, hp2, rfl, h, hx⟩ := seq_tok hp1 h hx hR5
    obtain ⟨p3, m3, ev3, y3, hp3, rfl, hy3, h, hx⟩ := seq_name (H R.name_ .name rfl (by decide)) hp2 h hx hR3
    obtain ⟨ev10, txt, h, _, hx⟩ := seq_act h hx
    obtain ⟨-, -, rfl⟩ := seq_end h hx
    exact ⟨_, _, rfl, .ast2 .str (.tup hy3.1 .tup0), fun hc => by cases hc.inv.2.1 with | tup h _ => exact hy3.2 h⟩

end
end Potion.Greg
