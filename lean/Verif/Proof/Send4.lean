import Verif.Proof.Send3
/-! Proof of C77: the nodes of a chain. -/
namespace Potion.Send
open Potion Potion.Peg Potion.CompileAll Potion.Vm

variable {V S E : Type} {W : World V S E} {me : V} {dl : List (BitVec 8) → Bool}

theorem Does.path {α : Type} {f : Fn} {n n' n1 : Nat} {regs regs' : Nat → V} {x : M V S E α} {Q : α → (Nat → V) → Prop}
    (hs : ∀ loc m, Path W me f ⟨n, regs, loc, m⟩ ⟨n', regs', loc, m⟩) (h : Does W me f n' regs' x n1 Q) : Does W me f n regs x n1 Q := by
  intro loc s hA
  have h1 := h loc s hA
  cases hx : x s with
  | error e =>
    rw [hx] at h1
    obtain ⟨t, p, q⟩ := h1
    exact ⟨t, (hs loc s.mem).trans p, q⟩
  | ok p =>
    rw [hx] at h1
    obtain ⟨r, l, p, a, q⟩ := h1
    exact ⟨r, l, (hs loc s.mem).trans p, a, q⟩
theorem Does.jump {α : Type} {f : Fn} {n n' n1 : Nat} {regs : Nat → V} {x : M V S E α} {Q : α → (Nat → V) → Prop}
    (hs : ∀ loc m, step W me f ⟨n, regs, loc, m⟩ = .go ⟨n', regs, loc, m⟩) (h : Does W me f n' regs x n1 Q) : Does W me f n regs x n1 Q :=
  Does.path (fun loc m => .step (hs loc m) (.refl _)) h

theorem emits_asm' {K op} {x y : Int} {a b : Nat} (hx : x = a) (hy : y = b) (ha : a < 2048) (hb : b < 2048) :
    Emits (fun st => some (st.asm op x y)) K K (fun f n0 n1 => n1 = n0 + 1 ∧ At f n0 op a b) := by
  subst hx hy; exact emits_asm ha hb

/-- A conditional jump over the code of `B`. -/
theorem emits_jump {A B : CSt → Option CSt} {K K1 K2 C1 C2 op} {reg : Nat} (hr : reg < 2048) (hA : Emits A K K1 C1) (hB : Emits B K1 K2 C2) :
    Emits (fun st => (A st).bind fun h => (B (h.asm op reg 0)).bind fun s => some (s.patchB h.len ((s.len : Int) - h.len - 1))) K K2
      (fun f n0 n1 => ∃ j, j + 1 ≤ n1 ∧ C1 f n0 j ∧ At f j op reg (n1 - j - 1) ∧ C2 f (j + 1) n1) := by
  intro st hG
  obtain ⟨h, a1, a2, a3, a4⟩ := hA st hG
  obtain ⟨s, b1, b2, b3, b4⟩ := hB (h.asm op reg 0) (good_asm a3 ..)
  have hl := b2.len
  simp only [len_asm] at hl
  have a2l := a2.len
  refine ⟨s.patchB h.len ((s.len : Int) - h.len - 1), by simp [a1, b1], ?_, ?_, ?_⟩
  · refine ⟨by show st.len ≤ s.len; omega, fun k hk => ?_, a2.vals.trans b2.vals, a2.locs.trans b2.locs, fun x => b2.over (a2.over x),
      by show s.upvals = _; rw [b2.ups]; exact a2.ups, by show s.outer = _; rw [b2.out]; exact a2.out, by show s.loop = _; rw [b2.loop]; exact a2.loop⟩
    simp only [CSt.patchB]
    rw [if_neg (by omega), b2.code k (by simp; omega)]
    simp only [CSt.asm]
    rw [if_neg (by omega), a2.code k hk]
  · exact b3
  · intro f hH hf
    have hfl := hH.len
    have e1 : (s.patchB h.len ((s.len : Int) - h.len - 1)).len = s.len := rfl
    rw [e1] at hfl ⊢
    have hc : ∀ k, st.len ≤ k → k < s.len → k ≠ h.len → f.code k = s.code k := fun k h1 h2 h3 => by
      rw [hH.code k h1 h2]; simp only [CSt.patchB]; rw [if_neg h3]
    refine ⟨h.len, hl, a4 f ⟨by omega, fun k h1 h2 => ?_, b2.vals.trans hH.vals, b2.locs.trans hH.locs, fun x => hH.over (b2.over x)⟩ hf, ⟨by omega, ?_⟩,
      b4 f ⟨hfl, fun k h1 h2 => ?_, hH.vals, hH.locs, hH.over⟩ hf⟩
    · rw [hc k h1 (by omega) (by omega), b2.code k (by simp; omega)]
      simp only [CSt.asm]; rw [if_neg (by omega)]
    · rw [hH.code h.len a2l (by rw [e1]; omega)]
      simp only [CSt.patchB, if_pos]
      rw [b2.code h.len (by simp)]
      simp only [CSt.asm, if_pos]
      have := hf.2.1
      rw [trunc_id (i := (reg : Int)) (by omega) (by omega), trunc_id (by omega) (by omega)]
      congr 1; omega
    · simp only [len_asm] at h1
      exact hc k (by omega) h2 (by omega)

theorem isHere_length {c : Chain} : c.isHere = true ↔ (items c).length = 0 := by
  cases c <;> simp [Chain.isHere, items]

/-- What a chain leaves. -/
def CPost (c : Chain) (me : V) (reg : Nat) (regs : Nat → V) (v : V) (r : Nat → V) : Prop :=
  (c.isHere = false → r reg = v) ∧ (c.isHere = true → v = me) ∧ ∀ i < reg, r i = regs i

/-- What a chain emits. -/
def ChainOk (W : World V S E) (me : V) (dl : List (BitVec 8) → Bool) (n reg : Nat) (c : Chain) (K : List Ident) : Prop :=
  Emits (fun st => each (fun i v => asmb dl n v i reg) 0 (items c) st) K (namesC c K)
    (fun f n0 n1 => ∀ regs, Does W me f n0 regs (evalC W me c K) n1 (CPost c me reg regs))
/-- What an expression emits. -/
def ExOk (W : World V S E) (me : V) (G : CSt → Option CSt) (b : Bool) (reg : Nat) (e : Ex) (K : List Ident) : Prop :=
  Emits G K (namesE e K) (fun f n0 n1 => ∀ regs, Does W me f n0 regs (evalE W me b e K) n1 (Post reg regs))
def ArgsOk (W : World V S E) (me : V) (dl : List (BitVec 8) → Bool) (n : Nat) (as : Exs) (K : List Ident) : Prop :=
  ∀ r0 < 256, ∀ freg num, EmitsA (argItems (asmb dl n) freg num (trees as) r0) K (namesL as K)
    (fun f n0 n1 b => ∃ k, b = r0 + k ∧ ∀ regs, Does W me f n0 regs (evalA W me as K) n1
      (fun vs r => block r (r0 + 1) k = vs ∧ ∀ i ≤ r0, r i = regs i))

theorem chain_snoc {c : Chain} {node : Tree} {g : V → M V S E V} {n reg K K2} (hc : ChainOk W me dl n reg c K)
    (hn : Emits (asmb dl n node (items c).length reg) (namesC c K) K2 (fun f n0 n1 => ∀ regs r, ((items c).length = 0 → r = me) →
      ((items c).length ≠ 0 → regs reg = r) → Does W me f n0 regs (g r) n1 (Post reg regs))) :
    Emits (fun st => each (fun i v => asmb dl n v i reg) 0 (items c ++ [node]) st) K K2
      (fun f n0 n1 => ∀ regs, Does W me f n0 regs (evalC W me c K >>= g) n1 (Post reg regs)) := by
  refine ((Emits.seq hc hn).congr fun st _ => ?_).mono fun f n0 n2 _ ⟨n1, h1, h2⟩ regs => ?_
  · rw [each_snoc, Nat.zero_add]
  · refine Does.bind (h1 regs) fun v r ⟨q1, q2, q3⟩ => (h2 r v (fun hl => q2 (isHere_length.2 hl)) fun hl => q1 ?_).conseq fun v' r' ⟨p1, p2⟩ =>
      ⟨p1, fun i hi => by rw [p2 i hi, q3 i hi]⟩
    cases hh : c.isHere with
    | true => exact absurd (isHere_length.1 hh) hl
    | false => rfl

theorem post_chain {c : Chain} (hc : c.isHere = false) {reg : Nat} {regs : Nat → V} {v r} (h : Post reg regs v r) : CPost c me reg regs v r :=
  ⟨fun _ => h.1, fun hh => by rw [hc] at hh; contradiction, h.2⟩

theorem each_one {g : Nat → Tree → CSt → Option CSt} {v : Tree} {st : CSt} : each g 0 [v] st = g 0 v st := by
  have := each_snoc (g := g) (v := v) (l := []) (i := 0) (st := st)
  simpa [each] using this

/-! ### Nodes -/

theorem asmb_leaf {n k a b c count reg st} : asmb dl (n + 1) (.node k a b c) count reg st = node dl (asmb dl n) k a b c count reg (st.regs reg) := rfl

theorem msgNode_plain {rec : Rec} {m : Ident} {v blk count reg st} (h : plain m = true) :
    msgNode dl rec .msg (.str m) v blk count reg st = plainMsg rec .msg (.str m) v blk count reg reg st := by
  simp only [plain, List.map_cons, List.map_nil, List.contains_cons, List.contains_nil, Bool.not_eq_true', Bool.or_eq_false_iff, beq_eq_false_iff_ne] at h
  obtain ⟨h1, h2, h3, h4, h5, h6, h7, h8, h9, h10, h11, _⟩ := h
  unfold msgNode
  dsimp only
  rw [if_neg h1, if_neg h2, if_neg h3, if_neg h4, if_neg h5, if_neg h6, if_neg h7, if_neg h8, if_neg h9, if_neg h10, if_neg h11]

theorem look_good {st : CSt} {K} {m : Ident} (h : Good st K) : st.look (.str m) = (st, (find (K.map .str) (.str m)).map fun n => (false, n)) := by
  unfold CSt.look CSt.upval
  rw [h.1]
  cases hf : find (K.map .str) (.str m) with
  | some i => dsimp only; rw [h.1, hf]
  | none => simp only [h.2.1, h.2.2, find, pushUp]; rw [h.1, hf]
theorem var_good {st : CSt} {K} {m : Ident} (h : Good st K) : st.var (.str m) = ((st.locl (.str m)).1, false, (st.locl (.str m)).2) := by
  unfold CSt.var CSt.upval
  rw [h.1]
  cases hf : find (K.map .str) (.str m) with
  | some i => rfl
  | none => simp only [h.2.1, h.2.2, find, pushUp]

theorem Does.readVar {f : Fn} {n a i : Nat} {regs : Nat → V} {x : Ident} (h : At f n .getlocal a i) (hx : find f.locals (.str x) = some i) :
    Does W me f n regs (readVar x) (n + 1) (fun v r => r = upd regs a v) := by
  intro loc s hA
  refine ⟨_, loc, .step (step_getlocal h) (.refl _), hA, ?_⟩
  rw [hA x i hx]

theorem emits_getlocal {K} {m : Ident} {reg i : Nat} (hr : reg < 256) (hi : find (K.map .str) (.str m) = some i) :
    Emits (fun st => some (st.asm .getlocal reg i)) K K
      (fun f n0 n1 => ∀ regs, Does W me f n0 regs (readVar m) n1 (fun v r => r = upd regs reg v)) := by
  intro st hG
  refine ⟨_, rfl, grow_asm .., good_asm hG .., fun f hH hf regs => ?_⟩
  have h1 : find f.locals (.str m) = some i := by
    refine find_prefix hH.locs ?_
    show find st.locals _ = _
    rw [hG.1]; exact hi
  have h2 := find_lt h1
  have := hf.2.2.1
  exact Does.readVar (at_asm hH (Nat.le_refl _) (.refl _) (by omega) (by omega)) h1

/-- The call at the end. -/
theorem emits_call {K} {reg b : Nat} (hr : reg < 256) (hb : b < 256) :
    Emits (fun st => some ((st.asm .call reg b).regs b)) K K (fun f n0 n1 => n1 = n0 + 1 ∧ At f n0 .call reg b) := by
  refine ((Emits.seq (emits_asm (a := reg) (b := b) (by omega) (by omega)) emits_regs).congr fun st _ => rfl).mono ?_
  rintro f n0 n1 _ ⟨n', ⟨h1, h2⟩, rfl⟩
  exact ⟨h1, h2⟩

/-- Arguments: a list, or one value. -/
theorem argTree_cases {as : Exs} (h : okA as = true) : argTree as = leaf .list (tupOf (trees as)) ∨
    ∃ a b c, argTree as = .node .value a b c ∧ trees as = [.node .value a b c] := by
  cases as with
  | nil => left; rw [argTree, trees]; rfl
  | cons e r => left; rw [argTree, trees]; rfl
  | pair k e r => simp [okA] at h
  | lone c =>
    right
    simp only [okA, Bool.and_eq_true] at h
    cases c with
    | lit v => exact ⟨_, _, _, by rw [argTree, items]; rfl, by rw [trees, items]; rfl⟩
    | index x k => exact ⟨_, _, _, by rw [argTree, items]; rfl, by rw [trees, items]; rfl⟩
    | _ => simp [alone] at h
theorem argTree_node {as : Exs} (h : okA as = true) : ∃ k a b c, argTree as = .node k a b c := by
  rcases argTree_cases h with e | ⟨a, b, c, e, _⟩ <;> exact ⟨_, _, _, _, e⟩
theorem argAsmb_tree {as : Exs} (h : okA as = true) {rec : Rec} {reg : Nat} {st : CSt} :
    argAsmb rec (argTree as) reg true st = argItems rec reg (trees as).length (trees as) reg st := by
  rcases argTree_cases h with e | ⟨a, b, c, e, e'⟩
  · rw [e]; exact argAsmb_list
  · rw [e, e']
    show Option.map _ _ = _
    rw [argItems]
    show _ = Option.bind (rec (.node .value a b c) 0 ((reg + 1) % 256) (st.wide (reg + 1))) _
    cases rec (.node .value a b c) 0 ((reg + 1) % 256) (st.wide (reg + 1)) <;> rfl
theorem msgArgs_list {rec : Rec} {as : Exs} (h : okA as = true) {breg st} :
    msgArgs rec (argTree as) .nil breg st = argItems rec breg (trees as).length (trees as) breg st := by
  rw [← argAsmb_tree h]
  unfold msgArgs
  rcases argTree_cases h with e | ⟨a, b, c, e, e'⟩
  · rw [e]
    simp only [leaf, isNil, Tree.nil, beq_self_eq_true, if_true]
    cases argAsmb rec (.node .list (tupOf (trees as)) (.imm PN_NIL) (.imm PN_NIL)) breg true st <;> rfl
  · rw [e]
    show Option.bind (argAsmb rec (.node .value a b c) breg true st) _ = _
    cases argAsmb rec (.node .value a b c) breg true st <;> rfl

theorem message_send {rec : Rec} {m : Ident} {count reg st} : message rec .msg (.str m) .nil .nil count reg reg st =
    ((some (head count reg (.str m) .bind st)).bind fun st =>
      some ((st.wide ((reg + 1) % 256 + 1)).asm .loadpn (((reg + 1) % 256 + 1) % 256 : Nat) 0, ((reg + 1) % 256 + 1) % 256)).bind fun p =>
        some ((p.1.asm .call reg p.2).regs p.2) := rfl
theorem message_ask {rec : Rec} {m : Ident} {count reg st} : message rec .query (.str m) .nil .nil count reg reg st =
    ((some (head count reg (.str m) .bind st)).bind fun st =>
      some ((st.wide ((reg + 1) % 256 + 1)).asm .loadpn (((reg + 1) % 256 + 1) % 256 : Nat) 0, ((reg + 1) % 256 + 1) % 256)).bind fun p =>
        some ((p.1.asm .test reg p.2).regs p.2) := rfl
theorem message_args {rec : Rec} {m : Ident} {as : Exs} (h : okA as = true) {count reg st} : message rec .msg (.str m) (argTree as) .nil count reg reg st =
    ((some (head count reg (.str m) .msg st)).bind (argItems rec ((reg + 1) % 256) (trees as).length (trees as) ((reg + 1) % 256))).bind fun p =>
      some ((p.1.asm .call reg p.2).regs p.2) := by
  unfold message
  simp only [Option.bind_some]
  rw [← msgArgs_list h]
  obtain ⟨k, a, b, c, e⟩ := argTree_node h
  rw [e]
  rfl
theorem patch_regs {st : CSt} {b i d} : (st.regs b).patchB i d = (st.patchB i d).regs b := by
  unfold CSt.regs CSt.patchB
  dsimp only
  split <;> rfl
theorem message_askArgs {rec : Rec} {m : Ident} {as : Exs} (h : okA as = true) {count reg st} : message rec .query (.str m) (argTree as) .nil count reg reg st =
    (some (head count reg (.str m) .msg st)).bind fun h => (((argItems rec ((reg + 1) % 256) (trees as).length (trees as) ((reg + 1) % 256)) (h.asm .notjmp reg 0)).bind fun p =>
      some ((p.1.asm .call reg p.2).regs p.2)).bind fun s => some (s.patchB h.len ((s.len : Int) - h.len - 1)) := by
  unfold message
  simp only [Option.bind_some]
  rw [← msgArgs_list h]
  obtain ⟨k, a, b, c, e⟩ := argTree_node h
  rw [e]
  show (msgArgs rec (.node k a b c) .nil ((reg + 1) % 256) ((head count reg (.str m) .msg st).asm .notjmp reg 0)).bind _ = _
  cases msgArgs rec (.node k a b c) .nil ((reg + 1) % 256) ((head count reg (.str m) .msg st).asm .notjmp reg 0) with
  | none => rfl
  | some p =>
    simp only [Option.bind_some]
    rw [patch_regs, len_regs]
    rfl

end Potion.Send
