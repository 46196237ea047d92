import Verif.Proof.GregActs2
namespace Potion.Greg
open Potion.Peg (PExp NT Tree Kind)

section
variable (P : Nat → List Byte → Bool) (inp : List Byte)
/-- All recursive rules compute their trees, as far as `f` steps reach. -/
def All (f : Nat) : Prop := ∀ r n, ntOf r = some n → n ≠ .unqChar → Rl P inp f r (.nt n)
end

section
variable {P : Nat → List Byte → Bool} {inp : List Byte} {f : Nat}
local notation "Ev'" => Eval potionGrammar P inp
local notation "Run'" => Runs runAct inp

def stmtOps : List Op := [⟨R.or_, Peg.or, 4, .or⟩, ⟨R.and_, Peg.and, 5, .and⟩]
def eqsOps : List Op := [⟨R.cmp, Peg.cmp, 23, .cmp⟩, ⟨R.eq_, Peg.eq, 24, .eq⟩, ⟨R.neq, Peg.neq, 25, .neq⟩]
def cmpsOps : List Op := [⟨R.gte, Peg.gte, 27, .gte⟩, ⟨R.gt_, Peg.gt, 28, .gt⟩, ⟨R.lte, Peg.lte, 29, .lte⟩, ⟨R.lt_, Peg.lt, 30, .lt⟩]
def bitorsOps : List Op := [⟨R.pipe, Peg.pipe, 32, .pipe⟩, ⟨R.caret, Peg.caret, 33, .caret⟩]
def bitandOp : Op := ⟨R.amp, Peg.amp, 35, .amp⟩
def bitshiftOps : List Op := [⟨R.bitl, Peg.bitl, 37, .bitl⟩, ⟨R.bitr, Peg.bitr, 38, .bitr⟩]
def sumOps : List Op := [⟨R.plus, Peg.plus, 40, .plus⟩, ⟨R.minus, Peg.minus, 41, .minus⟩]
def productOps : List Op := [⟨R.times, Peg.times, 43, .times⟩, ⟨R.div_, Peg.div, 44, .div⟩, ⟨R.rem_, Peg.rem, 45, .rem⟩]
def powerOp : Op := ⟨R.pow_, Peg.pow, 47, .pow⟩

theorem fine1 {o : Op} (hs : Same (.name o.tok none) o.q) (hq : isQuiet o.tok = true) (h : ∀ t env y, runAct o.act t env y = put 1 (ast2 o.k (env 1).1 (env 0).1) env y) :
    o.Fine := ⟨hq, hs, h⟩

theorem stmt_ok (H : All P inp f) : Rl P inp f R.stmt (Peg.rule .stmt) :=
  chains_ok (b := R.sets) (n := .sets) stmtOps (fin := 6) (by decide) rfl rfl rfl
    (by simp only [stmtOps, List.forall_mem_cons]; exact ⟨fine1 (by same) (by decide +kernel) fun _ _ _ => rfl, fine1 (by same) (by decide +kernel) fun _ _ _ => rfl, by simp⟩)
    (fun _ _ _ => rfl) (H _ _ rfl (by decide))

theorem eqs_ok (H : All P inp f) : Rl P inp f R.eqs (Peg.rule .eqs) :=
  chains_ok (b := R.cmps) (n := .cmps) eqsOps (fin := 26) (by decide) rfl rfl rfl
    (by simp only [eqsOps, List.forall_mem_cons]; exact ⟨fine1 (by same) (by decide +kernel) fun _ _ _ => rfl, fine1 (by same) (by decide +kernel) fun _ _ _ => rfl, fine1 (by same) (by decide +kernel) fun _ _ _ => rfl, by simp⟩)
    (fun _ _ _ => rfl) (H _ _ rfl (by decide))

theorem cmps_ok (H : All P inp f) : Rl P inp f R.cmps (Peg.rule .cmps) :=
  chains_ok (b := R.bitors) (n := .bitors) cmpsOps (fin := 31) (by decide) rfl rfl rfl
    (by simp only [cmpsOps, List.forall_mem_cons]; exact ⟨fine1 (by same) (by decide +kernel) fun _ _ _ => rfl, fine1 (by same) (by decide +kernel) fun _ _ _ => rfl, fine1 (by same) (by decide +kernel) fun _ _ _ => rfl, fine1 (by same) (by decide +kernel) fun _ _ _ => rfl, by simp⟩)
    (fun _ _ _ => rfl) (H _ _ rfl (by decide))

theorem bitors_ok (H : All P inp f) : Rl P inp f R.bitors (Peg.rule .bitors) :=
  chains_ok (b := R.bitand) (n := .bitand) bitorsOps (fin := 34) (by decide) rfl rfl rfl
    (by simp only [bitorsOps, List.forall_mem_cons]; exact ⟨fine1 (by same) (by decide +kernel) fun _ _ _ => rfl, fine1 (by same) (by decide +kernel) fun _ _ _ => rfl, by simp⟩)
    (fun _ _ _ => rfl) (H _ _ rfl (by decide))

theorem bitshift_ok (H : All P inp f) : Rl P inp f R.bitshift (Peg.rule .bitshift) :=
  chains_ok (b := R.sum_) (n := .sum) bitshiftOps (fin := 39) (by decide) rfl rfl rfl
    (by simp only [bitshiftOps, List.forall_mem_cons]; exact ⟨fine1 (by same) (by decide +kernel) fun _ _ _ => rfl, fine1 (by same) (by decide +kernel) fun _ _ _ => rfl, by simp⟩)
    (fun _ _ _ => rfl) (H _ _ rfl (by decide))

theorem sum_ok (H : All P inp f) : Rl P inp f R.sum_ (Peg.rule .sum) :=
  chains_ok (b := R.product) (n := .product) sumOps (fin := 42) (by decide) rfl rfl rfl
    (by simp only [sumOps, List.forall_mem_cons]; exact ⟨fine1 (by same) (by decide +kernel) fun _ _ _ => rfl, fine1 (by same) (by decide +kernel) fun _ _ _ => rfl, by simp⟩)
    (fun _ _ _ => rfl) (H _ _ rfl (by decide))

theorem product_ok (H : All P inp f) : Rl P inp f R.product (Peg.rule .product) :=
  chains_ok (b := R.power) (n := .power) productOps (fin := 46) (by decide) rfl rfl rfl
    (by simp only [productOps, List.forall_mem_cons]; exact ⟨fine1 (by same) (by decide +kernel) fun _ _ _ => rfl, fine1 (by same) (by decide +kernel) fun _ _ _ => rfl, fine1 (by same) (by decide +kernel) fun _ _ _ => rfl, by simp⟩)
    (fun _ _ _ => rfl) (H _ _ rfl (by decide))

theorem bitand_ok (H : All P inp f) : Rl P inp f R.bitand (Peg.rule .bitand) :=
  have hf : bitandOp.Fine := fine1 (by same) (by decide +kernel) fun _ _ _ => rfl
  chain_ok (b := R.bitshift) (n := .bitshift) (ops := [bitandOp]) (fin := 36) (body := bitandOp.ex R.bitshift) (qs := bitandOp.px .bitshift)
    rfl rfl (hf.ex (.nt rfl)) (.nt rfl) (.nt rfl) (by intro o ho; rw [List.mem_singleton] at ho; subst ho; exact hf)
    (fun h hr => ⟨_, List.mem_singleton.2 rfl, _, h, hr⟩) (fun _ _ _ => rfl) (H _ _ rfl (by decide))

theorem power_ok (H : All P inp f) : Rl P inp f R.power (Peg.rule .power) :=
  have hf : powerOp.Fine := fine1 (by same) (by decide +kernel) fun _ _ _ => rfl
  chain_ok (b := R.expr) (n := .expr) (ops := [powerOp]) (fin := 48) (body := powerOp.ex R.expr) (qs := powerOp.px .expr)
    rfl rfl (hf.ex (.nt rfl)) (.nt rfl) (.nt rfl) (by intro o ho; rw [List.mem_singleton] at ho; subst ho; exact hf)
    (fun h hr => ⟨_, List.mem_singleton.2 rfl, _, h, hr⟩) (fun _ _ _ => rfl) (H _ _ rfl (by decide))

/-! ### Brackets -/

/-- `start x:inner end { $$ = PN_AST(k, x) }` -/
theorem bracket_ok {r st en b a : Nat} {n : NT} {k : Kind} {q1 q2 : PExp} {ru : Rule} (hru : potionGrammar[r]? = some ru)
    (hbody : ru.body = sequ [.name st none, .name b (some 0), .name en none, .act a])
    (h1 : (Exp.name st none).quiet isQuiet = true ∧ Same (.name st none) q1) (h2 : (Exp.name en none).quiet isQuiet = true ∧ Same (.name en none) q2)
    (hb : Same (.name b (some 0)) (.nt n)) (ha : ∀ t env y, runAct a t env y = ret (ast1 k (env 0).1) env y) (H : Rl P inp f b (.nt n)) :
    Rl P inp f r (.act (Peg.ast k) (Peg.right q1 (Peg.left (.nt n) q2))) := by
  intro ru' pos m p evs m' t i env envs y s' hr hp h hR hx
  rw [hru] at hr; cases hr
  rw [hbody] at h
  obtain ⟨t0, hR0, rfl⟩ := hR.act
  obtain ⟨_, i1, hR1, hR2⟩ := hR0.right
  obtain ⟨_, i2, hR3, hR4⟩ := hR2.left
  obtain ⟨p1, ev1, hp1, rfl, h, hx⟩ := seq_tok hp h hx hR1 h1.1 h1.2
  obtain ⟨p2, m2, ev2, y1, hp2, rfl, hy, h, hx⟩ := seq_name H hp1 h hx hR3 hb
  obtain ⟨p3, ev3, hp3, rfl, h, hx⟩ := seq_tok hp2 h hx hR4 h2.1 h2.2
  obtain ⟨ev4, txt, h, _, hx⟩ := seq_act h hx
  obtain ⟨-, -, rfl⟩ := seq_end h hx
  rw [ha]
  exact ⟨_, _, rfl, .ast1 hy.1, fun hc => hy.2 hc.inv.1⟩

theorem list_ok (H : All P inp f) : Rl P inp f R.list_ (Peg.rule .list) :=
  bracket_ok (st := R.list_start) (en := R.list_end) (b := R.statements) (a := 82) rfl rfl ⟨by decide +kernel, by same⟩ ⟨by decide +kernel, by same⟩ (.nt rfl) (fun _ _ _ => rfl)
    (H _ _ rfl (by decide))
theorem block_ok (H : All P inp f) : Rl P inp f R.block_ (Peg.rule .block) :=
  bracket_ok (st := R.block_start) (en := R.block_end) (b := R.statements) (a := 83) rfl rfl ⟨by decide +kernel, by same⟩ ⟨by decide +kernel, by same⟩ (.nt rfl) (fun _ _ _ => rfl)
    (H _ _ rfl (by decide))
theorem lick_ok (H : All P inp f) : Rl P inp f R.lick (Peg.rule .lick) :=
  bracket_ok (st := R.lick_start) (en := R.lick_end) (b := R.lick_items) (a := 84) rfl rfl ⟨by decide +kernel, by same⟩ ⟨by decide +kernel, by same⟩ (.nt rfl) (fun _ _ _ => rfl)
    (H _ _ rfl (by decide))
theorem group_ok (H : All P inp f) : Rl P inp f R.group (Peg.rule .group) :=
  bracket_ok (st := R.group_start) (en := R.group_end) (b := R.statements) (a := 85) rfl rfl ⟨by decide +kernel, by same⟩ ⟨by decide +kernel, by same⟩ (.nt rfl) (fun _ _ _ => rfl)
    (H _ _ rfl (by decide))

/-! ### Statements -/

/-- `x:b { $$ = x = PN_TUP(x) } (sep z:b { $$ = x = PN_PUSH(x, z) })* sep? | '' { $$ = PN_NIL }` -/
theorem items_ok {r b a1 a2 a3 : Nat} {n : NT} {ru : Rule} (hru : potionGrammar[r]? = some ru)
    (hbody : ru.body = choice [sequ [.name b (some 1), .act a1, .star (sequ [.name R.sep_ none, .name b (some 0), .act a2]), .opt (.name R.sep_ none)], sequ [.str [], .act a3]])
    (hn : ntOf b = some n)
    (h1 : ∀ t env y, runAct a1 t env y = ret (tup1 (env 1).1) (put 1 (tup1 (env 1).1) env y).1 y)
    (h2 : ∀ t env y, runAct a2 t env y = ret (push (env 1).1 (env 0).1) (put 1 (push (env 1).1 (env 0).1) env y).1 y)
    (h3 : ∀ t env y, runAct a3 t env y = ret .nil env y) (H : Rl P inp f b (.nt n)) :
    Rl P inp f r (.alt (.act Peg.items (.seq (.nt n) (.seq (.star (Peg.right Peg.sep (.nt n))) (Peg.opt Peg.sep)))) (.act (fun _ => .nil) .eps)) := by
  have hb : ∀ {v}, Same (.name b v) (.nt n) := .nt hn
  have hs2 : Same (sequ [.name R.sep_ none, .name b (some 0), .act a2]) (Peg.right Peg.sep (.nt n)) := Same.to (.seq S.sep (.last hb (.act .eps)))
  have hs : Same (sequ [.name b (some 1), .act a1, .star (sequ [.name R.sep_ none, .name b (some 0), .act a2]), .opt (.name R.sep_ none)])
      (.act Peg.items (.seq (.nt n) (.seq (.star (Peg.right Peg.sep (.nt n))) (Peg.opt Peg.sep)))) := Same.to (.seq hb (.act (.seq (.star hs2) (.last (.opt S.sep) .eps))))
  intro ru' pos m p evs m' t i env envs y s' hr hp h hR hx
  rw [hru] at hr; cases hr
  rw [hbody] at h
  obtain ⟨w, hw, m1, h, hR⟩ := alts_inv (ps := [(_, _), (sequ [.str [], .act a3], .act (fun _ => .nil) .eps)]) (by simp)
    (by intro x hx; simp only [List.mem_cons, List.not_mem_nil, or_false] at hx; rcases hx with rfl | rfl; exact hs; exact Same.to (.last (.str rfl) (.act .eps))) h hR
  simp only [List.mem_cons, List.not_mem_nil, or_false] at hw
  rcases hw with rfl | rfl
  · obtain ⟨t0, hR0, rfl⟩ := hR.act
    obtain ⟨x, i1, tl, hR1, hR2, rfl⟩ := hR0.seq
    obtain ⟨xs, i2, te, hR3, hR4, rfl⟩ := hR2.seq
    obtain ⟨p1, m2, ev1, y1, hp1, rfl, hy, h, hx⟩ := seq_name H hp h hx hR1 hb
    obtain ⟨ev2, txt, h, _, hx⟩ := seq_act h hx
    rw [h1] at hx
    obtain ⟨p2, ev3, m3, ev4, h4, h5, rfl⟩ := seq_inv h
    obtain ⟨s1, hx1, hx2⟩ := runs_app hx
    obtain ⟨l, env', y', rfl, rfl, rfl, hI⟩ := star_ind (lst := []) hs2
      (fun l env' y' => Fits (.tup (x :: l)) (env' 1).1 ∧ Fits (.tup (x :: l)) y'.1 ∧ (Clean (.tup (x :: l)) → y'.2.failed = y.2.failed))
      (by
        intro pos m p evs m' t i env y' s' lst hp hI h hR hx
        obtain ⟨_, i1, hR1, hR2⟩ := hR.right
        obtain ⟨p1, ev2, hp1, rfl, h, hx⟩ := seq_tok hp h hx hR1
        obtain ⟨p2, m2, ev3, y1, hp2, rfl, hy1, h, hx⟩ := seq_name H hp1 h hx hR2 hb
        obtain ⟨ev4, txt, h, _, hx⟩ := seq_act h hx
        obtain ⟨-, -, rfl⟩ := seq_end h hx
        rw [h2]
        refine ⟨_, _, rfl, ?_⟩
        have key : Fits (.tup (x :: (lst ++ [t]))) (push (env 1).1 y1.1) := by
          obtain ⟨l', hl'⟩ := hI.1.tup_inv
          rw [hl', push]
          have := hI.1
          rw [hl'] at this
          exact this.push hy1.1
        refine ⟨key, key, fun hc => ?_⟩
        have hc' : Clean (.tup ((x :: lst) ++ [t])) := hc
        have := hc'.push
        show y1.2.failed = _
        rw [hy1.2 this.2, hI.2.2 this.1])
      hp1 h4 hR3 hx1 ⟨.tup hy.1 .tup0, .tup hy.1 .tup0, fun hc => by cases hc with | tup hc _ => exact hy.2 hc⟩
    obtain ⟨p3, ev5, ev6, hp3, h6, h7, hx3⟩ := seq_skip ((moves h4).2 hp1) h5 hx2 (by decide +kernel)
    obtain ⟨-, -, rfl⟩ := seq_end h7 hx3
    exact ⟨_, _, rfl, hI.2.1, hI.2.2⟩
  · obtain ⟨t0, hR0, rfl⟩ := hR.act
    obtain ⟨p1, ev1, ev2, hp1, h4, h, hx⟩ := seq_skip hp h hx (by decide +kernel)
    obtain ⟨ev3, txt, h, _, hx⟩ := seq_act h hx
    obtain ⟨-, -, rfl⟩ := seq_end h hx
    rw [h3]
    exact ⟨_, _, rfl, .nil, fun _ => rfl⟩

theorem statements_ok (H : All P inp f) : Rl P inp f R.statements (Peg.rule .statements) :=
  items_ok (b := R.stmt) (n := .stmt) (a1 := 1) (a2 := 2) (a3 := 3) rfl rfl rfl (fun _ _ _ => rfl) (fun _ _ _ => rfl)
    (fun _ _ _ => rfl) (H _ _ rfl (by decide))
theorem lickItems_ok (H : All P inp f) : Rl P inp f R.lick_items (Peg.rule .lickItems) :=
  items_ok (b := R.lick_item) (n := .lickItem) (a1 := 71) (a2 := 72) (a3 := 73) rfl rfl rfl (fun _ _ _ => rfl) (fun _ _ _ => rfl)
    (fun _ _ _ => rfl) (H _ _ rfl (by decide))

end
end Potion.Greg
