import Verif.Proof.Send5
/-! Proof of C77: lists, arguments, operators, assignments. -/
namespace Potion.Send
open Potion Potion.Peg Potion.CompileAll Potion.Vm

variable {V S E : Type} {W : World V S E} {me : V} {dl : List (BitVec 8) → Bool}

/-- An expression as a statement, element, argument … -/
def ExN (W : World V S E) (me : V) (dl : List (BitVec 8) → Bool) (n : Nat) (e : Ex) (K : List Ident) : Prop :=
  ∀ reg < 256, ∀ count, ExOk W me (asmb dl n (tree e) count reg) false reg e K
/-- … and as an operand. -/
def OpN (W : World V S E) (me : V) (dl : List (BitVec 8) → Bool) (n : Nat) (e : Ex) (K : List Ident) : Prop :=
  ∀ reg < 256, ExOk W me (pnArg (asmb dl n) (tree e) reg) true reg e K
def ListOk (W : World V S E) (me : V) (dl : List (BitVec 8) → Bool) (n : Nat) (es : Exs) (K : List Ident) : Prop :=
  ∀ reg < 256, ∀ i, Emits (each (fun _ v => listItem (asmb dl n) reg v) i (trees es)) K (namesL es K)
    (fun f n0 n1 => ∀ regs t, regs reg = t → Does W me f n0 regs (evalL W me es K t) n1 (Post reg regs))

theorem tree_node {e : Ex} (h : okE e = true) (hs : isSet e = false) : ∃ k a b c, tree e = .node k a b c ∧ k ≠ .assign := by
  cases e with
  | chain c => exact ⟨_, _, _, _, by rw [tree]; rfl, by decide⟩
  | bin k a b =>
    refine ⟨_, _, _, _, by rw [tree], ?_⟩
    rintro rfl
    simp [okE, isOp, binOp] at h
  | and a b => exact ⟨_, _, _, _, by rw [tree], by decide⟩
  | or a b => exact ⟨_, _, _, _, by rw [tree], by decide⟩
  | _ => simp [isSet] at hs

theorem listItem_node {rec : Rec} {reg k a b c st} (hk : k ≠ .assign) : listItem rec reg (.node k a b c) st =
    (rec (.node k a b c) 0 ((reg + 1) % 256) (st.wide (reg + 1))).bind fun st => some ((st.asm .settuple reg ((reg : Int) + 1)).regs (reg + 1)) := by
  cases k <;> first | rfl | exact absurd rfl hk
theorem argItem_node {rec : Rec} {freg n reg k a b c st} (hk : k ≠ .assign) : argItem rec freg n (.node k a b c) reg st =
    rec (.node k a b c) 0 reg st := by
  cases k <;> first | rfl | exact absurd rfl hk
theorem each_cons {g : Nat → Tree → CSt → Option CSt} {i v l st} : each g i (v :: l) st = (g i v st).bind (each g (i + 1) l) := by
  rw [each]; cases g i v st <;> rfl

theorem listOk_nil {n K} : ListOk W me dl n .nil K := by
  intro reg hr i
  rw [trees, namesL]
  refine (emits_id.congr fun st _ => by rw [each]).mono ?_
  rintro f n0 n1 _ rfl regs t ht
  rw [evalL]; exact Does.pure ⟨ht, fun _ _ => rfl⟩

theorem listOk_cons {n e r K} (ho : okE e = true) (hs : isSet e = false) (h : ExN W me dl n e K) (hr : ListOk W me dl n r (namesE e K)) :
    ListOk W me dl n (.cons e r) K := by
  intro reg hreg i
  rw [trees, namesL]
  obtain ⟨k, a, b, c, he, hk⟩ := tree_node ho hs
  have h1 := Emits.seq (emits_wide (n := reg + 1)) (h ((reg + 1) % 256) (Nat.mod_lt _ (by omega)) 0)
  have h2 := Emits.seq (Emits.seq h1 ((emits_asm' (op := .settuple) (x := reg) (y := (reg : Int) + 1) (a := reg) (b := reg + 1) rfl rfl (by omega) (by omega)).post (r := reg + 1)))
    (hr reg hreg (i + 1))
  refine (h2.congr fun st _ => ?_).mono ?_
  · rw [each_cons, he, listItem_node hk]; rfl
  · rintro f n0 n1 _ ⟨n2, ⟨n3, ⟨n4, ⟨rfl, hw⟩, q1⟩, rfl, q2⟩, q3⟩ regs t ht
    rw [mod_id hw] at q1
    rw [evalL]
    refine Does.bind (q1 regs) fun v r ⟨p1, p2⟩ => ?_
    refine Does.bind (Does.prim (a := reg) fun loc m => ?_) fun t' r' hr' => (q3 r' t' ?_).conseq fun v' r'' ⟨s1, s2⟩ => ⟨s1, fun j hj => ?_⟩
    · rw [step_settuple q2, p1, p2 reg (by omega), ht]
    · rw [hr', upd_same]
    · rw [s2 j hj, hr', upd_other (by omega), p2 j (by omega)]

theorem listItem_pair {rec : Rec} {reg st} {k : Ident} {t : Tree} : listItem rec reg (.node .assign (leaf .expr (.tup [leaf .msg (.str k)])) t .nil) st =
    ((some ((st.const (.str k)).1.asm .loadk ((reg : Int) + 1) (st.const (.str k)).2)).bind fun st => (some (st.wide (reg + 2))).bind
      (rec t 0 ((reg + 2) % 256))).bind fun st => some ((st.asm .settable reg ((reg : Int) + 2)).regs (reg + 2)) := by
  rfl

theorem listOk_pair {n k e r K} (h : ExN W me dl n e K) (hr : ListOk W me dl n r (namesE e K)) :
    ListOk W me dl n (.pair k e r) K := by
  intro reg hreg i
  rw [trees, namesL]
  have h0 := emits_loadk (K := K) (v := .str k) (a := reg + 1) (by omega)
  have h1 := Emits.seq h0 (Emits.seq (emits_wide (n := reg + 2)) (h ((reg + 2) % 256) (Nat.mod_lt _ (by omega)) 0))
  have h2 := Emits.seq (Emits.seq h1 ((emits_asm' (op := .settable) (x := reg) (y := (reg : Int) + 2) (a := reg) (b := reg + 2) rfl rfl (by omega) (by omega)).post (r := reg + 2)))
    (hr reg hreg (i + 1))
  refine (h2.congr fun st _ => ?_).mono ?_
  · rw [each_cons, listItem_pair]; rfl
  · rintro f n0 n1 _ ⟨n2, ⟨n3, ⟨n5, ⟨rfl, b, q0, q0'⟩, n4, ⟨rfl, hw⟩, q1⟩, rfl, q2⟩, q3⟩ regs t ht
    rw [mod_id hw] at q1
    rw [evalL]
    refine Does.silent (fun loc m => step_loadk q0 q0') (Does.bind (q1 _) fun v r ⟨p1, p2⟩ => ?_)
    refine Does.bind (Does.prim_ (reg' := r) fun loc m => ?_) fun _ r' hr' => (q3 r' t ?_).conseq fun v' r'' ⟨s1, s2⟩ => ⟨s1, fun j hj => ?_⟩
    · rw [step_settable q2, p1, p2 reg (by omega), p2 (reg + 1) (by omega), upd_same, upd_other (by omega), ht]
    · rw [hr', p2 reg (by omega), upd_other (by omega), ht]
    · rw [s2 j hj, hr', p2 j (by omega), upd_other (by omega)]

theorem argsOk_nil {n K} : ArgsOk W me dl n .nil K := by
  intro r0 hr freg num
  rw [trees, namesL]
  intro st hG
  refine ⟨st, r0, by rw [argItems], hr, .refl _, hG, fun f _ _ => ⟨0, rfl, fun regs => ?_⟩⟩
  rw [evalA]; exact Does.pure ⟨rfl, fun _ _ => rfl⟩

theorem argsOk_cons {n e r K} (ho : okE e = true) (hs : isSet e = false) (h : ExN W me dl n e K) (hr : ArgsOk W me dl n r (namesE e K)) :
    ArgsOk W me dl n (.cons e r) K := by
  intro r0 hr0 freg num
  rw [trees, namesL]
  obtain ⟨k, a, b, c, he, hk⟩ := tree_node ho hs
  have h1 := Emits.seq (emits_wide (n := r0 + 1)) (h ((r0 + 1) % 256) (Nat.mod_lt _ (by omega)) 0)
  have h2 := Emits.seqA h1 (hr ((r0 + 1) % 256) (Nat.mod_lt _ (by omega)) freg num)
  refine (h2.congr fun st _ => ?_).mono ?_
  · rw [argItems, he, argItem_node hk]; rfl
  · rintro f n0 n1 b _ hb ⟨n2, ⟨n3, ⟨rfl, hw⟩, q1⟩, k', hk', q2⟩
    rw [mod_id hw] at *
    refine ⟨k' + 1, by omega, fun regs => ?_⟩
    rw [evalA]
    refine Does.bind (q1 regs) fun v r ⟨p1, p2⟩ => Does.bind (q2 r) fun vs r' ⟨s1, s2⟩ => Does.pure ⟨?_, fun i hi => ?_⟩
    · rw [block, s1, s2 _ (by omega), p1]
    · rw [s2 i (by omega), p2 i (by omega)]

theorem argsOk_lone {n c K} (ho : okA (.lone c) = true) (hc : ∀ reg < 256, ChainOk W me dl n reg c K) : ArgsOk W me dl n (.lone c) K := by
  intro r0 hr0 freg num
  rw [namesL]
  have hal : alone c = true := by simp only [okA, Bool.and_eq_true] at ho; exact ho.2
  have hh : c.isHere = false := by cases c <;> simp_all [alone, Chain.isHere]
  obtain ⟨a, b, d, e1, e2⟩ : ∃ a b d, items c = [.node .value a b d] ∧ trees (.lone c) = [.node .value a b d] := by
    cases c with
    | lit v => exact ⟨_, _, _, by rw [items]; rfl, by rw [trees, items]; rfl⟩
    | index x k => exact ⟨_, _, _, by rw [items]; rfl, by rw [trees, items]; rfl⟩
    | _ => simp [alone] at hal
  rw [e2]
  have h1 := hc ((r0 + 1) % 256) (Nat.mod_lt _ (by omega))
  unfold ChainOk at h1
  rw [e1] at h1
  have h2 : EmitsA (fun st => some (st, (r0 + 1) % 256)) (namesC c K) (namesC c K) (fun f n0 n1 b => n1 = n0 ∧ b = (r0 + 1) % 256) := fun st hG =>
    ⟨st, _, rfl, Nat.mod_lt _ (by omega), .refl _, hG, fun f _ _ => ⟨rfl, rfl⟩⟩
  have h3 := Emits.seqA (Emits.seq (emits_wide (n := r0 + 1)) h1) h2
  refine (h3.congr fun st _ => ?_).mono ?_
  · rw [argItems]
    simp only [Option.bind_some]
    rw [each_one]
    show Option.bind (asmb dl n (.node .value a b d) 0 ((r0 + 1) % 256) (st.wide (r0 + 1))) _ = _
    congr 1
  · rintro f n0 n1 b _ hb ⟨n2, ⟨n3, ⟨rfl, hw⟩, q1⟩, rfl, rfl⟩
    rw [mod_id hw] at *
    refine ⟨1, rfl, fun regs => ?_⟩
    rw [evalA]
    refine Does.bind (q1 regs) fun v r ⟨p1, p2, p3⟩ => Does.pure ⟨?_, fun i hi => p3 i (by omega)⟩
    rw [block, block, p1 hh]

/-! ### Operands -/

theorem pnArg_node {rec : Rec} {k a b c reg} (hk : k ≠ .expr) : pnArg rec (.node k a b c) reg = rec (.node k a b c) 0 reg := by
  funext st; cases k <;> first | rfl | exact absurd rfl hk

/-- The first node of a chain. -/
theorem items_head {c : Chain} (h : c.isHere = false) : ∃ k x y z l, items c = .node k x y z :: l ∧ (k = .list → c.onList = true) := by
  have app : ∀ {c : Chain} {k x y z}, (k ≠ .list) → (c.isHere = false → ∃ k x y z l, items c = .node k x y z :: l ∧ (k = .list → c.onList = true)) →
      ∃ k' x' y' z' l, items c ++ [.node k x y z] = .node k' x' y' z' :: l ∧ (k' = .list → c.onList = true) := by
    intro c k x y z hk ih
    cases hh : c.isHere with
    | true =>
      rw [List.length_eq_zero_iff.1 (isHere_length.1 hh)]
      exact ⟨_, _, _, _, _, rfl, fun h => absurd h hk⟩
    | false =>
      obtain ⟨k, x, y, z, l, e, e'⟩ := ih hh
      rw [e]; exact ⟨_, _, _, _, _, rfl, e'⟩
  match c with
  | .here => simp [Chain.isHere] at h
  | .lit v => exact ⟨_, _, _, _, _, by rw [items]; rfl, by intro h; cases h⟩
  | .me => exact ⟨_, _, _, _, _, by rw [items]; rfl, by intro h; cases h⟩
  | .list es => exact ⟨_, _, _, _, _, by rw [items]; rfl, fun _ => rfl⟩
  | .not a => exact ⟨_, _, _, _, _, by rw [items]; rfl, by intro h; cases h⟩
  | .bitnot a => exact ⟨_, _, _, _, _, by rw [items]; rfl, by intro h; cases h⟩
  | .send c m => rw [items]; exact app (by decide) fun h => items_head h
  | .sendArgs c m as => rw [items]; exact app (by decide) fun h => items_head h
  | .apply c as => rw [items]; exact app (by decide) fun h => items_head h
  | .ask c m => rw [items]; exact app (by decide) fun h => items_head h
  | .askArgs c m as => rw [items]; exact app (by decide) fun h => items_head h
  | .path q c x => rw [items]; exact app (by cases q <;> decide) fun h => items_head h
  | .index x k => exact ⟨_, _, _, _, _, by rw [items]; rfl, by intro h; cases h⟩
  | .licks ls => exact ⟨_, _, _, _, _, by rw [items]; rfl, fun _ => rfl⟩
  | .inc pre up x => exact ⟨_, _, _, _, _, by rw [items], by intro h; cases h⟩

theorem pnArg_chain {rec : Rec} {c : Chain} {reg} (h : c.isHere = false) (hl : c.onList = false) :
    pnArg rec (tree (.chain c)) reg = rec (tree (.chain c)) 0 reg := by
  obtain ⟨k, x, y, z, l, e, e'⟩ := items_head h
  have hk : k ≠ .list := fun hk => by rw [e' hk] at hl; contradiction
  rw [tree, e]
  funext st
  cases k <;> first | rfl | exact absurd rfl hk

theorem evalE_chain {c : Chain} {K} : evalE W me false (.chain c) K = evalC W me c K := by
  rw [evalE]; simp
theorem evalE_operand {c : Chain} {K} (hl : c.onList = false) : evalE W me true (.chain c) K = evalC W me c K := by
  cases c <;> first | (simp [Chain.onList] at hl; done) | (rw [evalE]; simp)

theorem exOk_chain {n c K} (hh : c.isHere = false) (h : ∀ reg < 256, ChainOk W me dl n reg c K) : ExN W me dl (n + 1) (.chain c) K := by
  intro reg hr count
  refine (((h reg hr).pre (r := reg)).congr fun st _ => ?_).mono ?_
  · rw [tree]; rfl
  · intro f n0 n1 _ q regs
    rw [evalE_chain]
    exact (q regs).conseq fun v r ⟨p1, p2, p3⟩ => ⟨p1 hh, p3⟩

theorem opN_chain {n c K} (hh : c.isHere = false) (hl : c.onList = false) (h : ExN W me dl n (.chain c) K) : OpN W me dl n (.chain c) K := by
  intro reg hr
  have := h reg hr 0
  rw [← pnArg_chain (rec := asmb dl n) hh hl] at this
  unfold ExOk at *
  rw [evalE_operand hl]
  rw [evalE_chain] at this
  exact this
theorem opN_paren {n e K} (h : ExN W me dl n e K) : OpN W me dl n (.chain (.list (.cons e .nil))) K := by
  intro reg hr
  have := h reg hr 0
  unfold ExOk at *
  have e1 : namesE (.chain (.list (.cons e .nil))) K = namesE e K := by simp only [namesE, namesC, namesL]
  have e2 : evalE W me true (.chain (.list (.cons e .nil))) K = evalE W me false e K := by rw [evalE]
  rw [e1, e2]
  refine this.congr fun st _ => ?_
  simp only [tree, items, trees, tupOf]
  show each (fun _ v => asmb dl n v 0 reg) 0 [tree e] st = _
  rw [each_one]

theorem chainOk_not {n a K reg} (hr : reg < 256) (h : OpN W me dl n a K) : ChainOk W me dl (n + 1) reg (.not a) K := by
  unfold ChainOk
  rw [items, namesC]
  have h1 := Emits.seq (h reg hr) (emits_asm (op := .not) (a := reg) (b := reg) (by omega) (by omega))
  refine ((h1.pre (r := reg)).congr fun st _ => ?_).mono ?_
  · rw [each_one]; rfl
  · rintro f n0 n1 _ ⟨n2, q1, rfl, q2⟩ regs
    rw [evalC]
    refine Does.bind (q1 regs) fun v r ⟨p1, p2⟩ => Does.silent (fun loc m => step_not q2) (Does.pure (post_chain rfl ⟨?_, fun i hi => ?_⟩))
    · rw [upd_same, p1]
    · rw [upd_other (by omega), p2 i hi]
theorem chainOk_bitnot {n a K reg} (hr : reg < 256) (h : OpN W me dl n a K) : ChainOk W me dl (n + 1) reg (.bitnot a) K := by
  unfold ChainOk
  rw [items, namesC]
  have h1 := Emits.seq (h reg hr) (emits_asm (op := .bitn) (a := reg) (b := reg) (by omega) (by omega))
  refine ((h1.pre (r := reg)).congr fun st _ => ?_).mono ?_
  · rw [each_one]; rfl
  · rintro f n0 n1 _ ⟨n2, q1, rfl, q2⟩ regs
    rw [evalC]
    refine Does.bind (q1 regs) fun v r ⟨p1, p2⟩ => (Does.prim (a := reg) fun loc m => ?_).conseq fun v' r' hr' => post_chain rfl ⟨?_, fun i hi => ?_⟩
    · rw [step_bitn q2, p1]
    · rw [hr', upd_same]
    · rw [hr', upd_other (by omega), p2 i hi]

theorem chainOk_list {n es K reg} (hr : reg < 256) (h : ListOk W me dl n es K) : ChainOk W me dl (n + 1) reg (.list es) K := by
  unfold ChainOk
  rw [items, namesC]
  have h1 := Emits.seq (emits_asm_ (op := .newtuple) (a := reg) (by omega)) (h reg hr 0)
  refine ((h1.pre (r := reg)).congr fun st _ => ?_).mono ?_
  · rw [each_one]
    cases trees es <;> rfl
  · rintro f n0 n1 _ ⟨n2, ⟨rfl, q1⟩, q2⟩ regs
    rw [evalC]
    refine Does.bind (Does.prim (a := reg) fun loc m => step_newtuple q1) fun t r hr' => (q2 r t ?_).conseq fun v' r' ⟨s1, s2⟩ => post_chain rfl ⟨s1, fun i hi => ?_⟩
    · rw [hr', upd_same]
    · rw [s2 i hi, hr', upd_other (by omega)]

/-! ### Operators -/

theorem node_bin {rec : Rec} {k : Kind} {op : Op} {a b c count reg st} (hk : binOp k = some op) : node dl rec k a b c count reg st =
    (pnArg rec a reg st).bind fun st => ((some (st.wide (reg + 1))).bind (pnArg rec b ((reg + 1) % 256))).bind fun st => some (st.asm op reg ((reg : Int) + 1)) := by
  cases k <;> simp only [binOp, Option.some.injEq, reduceCtorEq] at hk <;> subst hk <;> rfl

theorem exN_bin {n k a b K} (hk : isOp k = true) (ha : OpN W me dl n a K) (hb : OpN W me dl n b (namesE a K)) : ExN W me dl (n + 1) (.bin k a b) K := by
  intro reg hr count
  obtain ⟨op, hop⟩ := Option.isSome_iff_exists.1 hk
  unfold ExOk
  rw [namesE]
  have h1 := Emits.seq (ha reg hr) (Emits.seq (Emits.seq (emits_wide (n := reg + 1)) (hb ((reg + 1) % 256) (Nat.mod_lt _ (by omega))))
    (emits_asm' (op := op) (x := reg) (y := (reg : Int) + 1) (a := reg) (b := reg + 1) rfl rfl (by omega) (by omega)))
  refine ((h1.pre (r := reg)).congr fun st _ => ?_).mono ?_
  · rw [tree, asmb_leaf, node_bin hop]
  · rintro f n0 n1 _ ⟨n2, q1, n3, ⟨n4, ⟨rfl, hw⟩, q2⟩, rfl, q3⟩ regs
    rw [mod_id hw] at q2
    rw [evalE, hop]
    refine Does.bind (q1 regs) fun x r ⟨p1, p2⟩ => Does.bind (q2 r) fun y r' ⟨s1, s2⟩ => (Does.prim (a := reg) fun loc m => ?_).conseq fun v' r'' hr' => ⟨?_, fun i hi => ?_⟩
    · rw [step_op hop q3, s1, s2 reg (by omega), p1]; rfl
    · rw [hr', upd_same]
    · rw [hr', upd_other (by omega), s2 i (by omega), p2 i hi]

theorem exN_and {n a b K} (ha : OpN W me dl n a K) (hb : OpN W me dl n b (namesE a K)) : ExN W me dl (n + 1) (.and a b) K := by
  intro reg hr count
  unfold ExOk
  rw [namesE]
  have h1 := emits_jump (op := .notjmp) (reg := reg) (by omega) (ha reg hr) (hb reg hr)
  refine ((h1.pre (r := reg)).congr fun st _ => ?_).mono ?_
  · rw [tree]; rfl
  · rintro f n0 n1 _ ⟨j, hj, q1, q2, q3⟩ regs
    rw [evalE]
    refine Does.bind (q1 regs) fun x r ⟨p1, p2⟩ => ?_
    by_cases ht : W.truth x = true
    · rw [if_pos ht]
      refine Does.jump (n' := j + 1) (fun loc m => by rw [step_notjmp q2, p1, if_pos ht]) ?_
      exact (q3 r).conseq fun v r' ⟨s1, s2⟩ => ⟨s1, fun i hi => by rw [s2 i hi, p2 i hi]⟩
    · rw [if_neg ht]
      refine Does.jump (n' := n1) (fun loc m => ?_) (Does.pure ⟨p1, p2⟩)
      rw [step_notjmp q2, p1, if_neg ht]
      congr 2; omega
theorem exN_or {n a b K} (ha : OpN W me dl n a K) (hb : OpN W me dl n b (namesE a K)) : ExN W me dl (n + 1) (.or a b) K := by
  intro reg hr count
  unfold ExOk
  rw [namesE]
  have h1 := emits_jump (op := .testjmp) (reg := reg) (by omega) (ha reg hr) (hb reg hr)
  refine ((h1.pre (r := reg)).congr fun st _ => ?_).mono ?_
  · rw [tree]; rfl
  · rintro f n0 n1 _ ⟨j, hj, q1, q2, q3⟩ regs
    rw [evalE]
    refine Does.bind (q1 regs) fun x r ⟨p1, p2⟩ => ?_
    by_cases ht : W.truth x = true
    · rw [if_pos ht]
      refine Does.jump (n' := n1) (fun loc m => ?_) (Does.pure ⟨p1, p2⟩)
      rw [step_testjmp q2, p1, if_pos ht]
      congr 2; omega
    · rw [if_neg ht]
      refine Does.jump (n' := j + 1) (fun loc m => by rw [step_testjmp q2, p1, if_neg ht]) ?_
      exact (q3 r).conseq fun v r' ⟨s1, s2⟩ => ⟨s1, fun i hi => by rw [s2 i hi, p2 i hi]⟩

end Potion.Send
