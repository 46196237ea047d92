import Verif.Proof.Send6
/-! Proof of C77: assignments. -/
namespace Potion.Send
open Potion Potion.Peg Potion.CompileAll Potion.Vm

variable {V S E : Type} {W : World V S E} {me : V} {dl : List (BitVec 8) → Bool}

theorem assign_snoc {rec : Rec} {c : Chain} {k : Kind} {x rhs : Tree} {count reg st} :
    assign rec (leaf .expr (.tup (items c ++ [leaf k x]))) rhs count reg st =
      (each (fun i v => rec v i reg) 0 (items c) st).bind (assignTo rec k x .nil rhs (items c).length reg) := by
  unfold assign leaf
  dsimp only
  rw [List.dropLast_concat, List.getLast?_concat, List.length_append, List.length_singleton, Nat.add_sub_cancel]
  rfl
theorem assign_one {rec : Rec} {k : Kind} {x rhs : Tree} {count reg st} :
    assign rec (leaf .expr (.tup [leaf k x])) rhs count reg st = assignTo rec k x .nil rhs 0 reg st := rfl

theorem node_assign {rec : Rec} {a b c : Tree} {count reg st} : node dl rec .assign a b c count reg st = assign rec a b count reg st := rfl

/-! ### Variables -/

theorem same_self {x : Ident} : same (.str x) (.str x) = true := by simp [same]
theorem find_put (x : Ident) (l : List Tree) : find (put l (.str x)).1 (.str x) = some (put l (.str x)).2 := by
  unfold put
  cases hf : find l (.str x) with
  | some i => exact hf
  | none =>
    show find (l ++ [.str x]) (.str x) = some l.length
    induction l with
    | nil => simp [find, same_self]
    | cons a l ih =>
      simp only [List.cons_append, find] at hf ⊢
      split at hf
      · contradiction
      · rename_i hs
        rw [if_neg hs, ih (by simpa using hf)]
        rfl

theorem good_locl {st : CSt} {K} {x : Ident} (h : Good st K) : Good (st.locl (.str x)).1 (addName K x) := by
  refine ⟨?_, h.2.1, h.2.2⟩
  show (put st.locals (.str x)).1 = _
  rw [h.1]
  unfold put addName
  cases hf : find (K.map .str) (.str x) with
  | some i => rw [if_pos (find_names.1 (by rw [hf]; rfl))]
  | none =>
    have : x ∉ K := fun hx => by have := find_names.2 hx; rw [hf] at this; contradiction
    rw [if_neg this, List.map_append]; rfl
theorem find_locl {st : CSt} {x : Ident} : find (st.locl (.str x)).1.locals (.str x) = some (st.locl (.str x)).2 := by
  show find (put st.locals (.str x)).1 (.str x) = some (put st.locals (.str x)).2
  exact find_put ..

theorem assignTo_set {rec : Rec} {x : Ident} {rhs : Tree} {reg st K} (h : Good st K) (hx : isUpper x = false) :
    assignTo rec .msg (.str x) .nil rhs 0 reg st =
      (rec rhs 0 reg (st.locl (.str x)).1).bind fun s => some ((s.asm .setlocal reg (st.locl (.str x)).2).regs reg) := by
  unfold assignTo target
  rw [if_pos (Or.inl rfl)]
  dsimp only
  rw [hx, if_neg Bool.false_ne_true, if_pos rfl, var_good h]
  rfl

theorem Does.writeVar {f : Fn} {n a i : Nat} {regs : Nat → V} {x : Ident} {v : V} (h : At f n .setlocal a i) (hx : find f.locals (.str x) = some i)
    (hv : regs a = v) : Does W me f n regs (writeVar x v) (n + 1) (fun _ r => r = regs) := by
  intro loc s hA
  refine ⟨regs, upd loc i (regs a), .step (step_setlocal h) (.refl _), fun y j hy => ?_, rfl⟩
  show upd loc i (regs a) j = if y = x then v else s.var y
  by_cases e : y = x
  · subst e
    rw [hx] at hy
    cases hy
    rw [if_pos rfl, upd_same, hv]
  · rw [if_neg e, upd_other, hA y j hy]
    rintro rfl
    have h1 := find_get hx
    have h2 := find_get hy
    rw [h1] at h2
    cases h2
    exact e rfl

theorem emits_set {n x e K reg count} {Q : (Nat → V) → V → (Nat → V) → Prop} (hr : reg < 256) (hx : isUpper x = false) (hQ : ∀ regs v r, Q regs v r → r reg = v)
    (h : Emits (asmb dl n (tree e) 0 reg) (addName K x) (namesE e (addName K x)) (fun f n0 n1 => ∀ regs, Does W me f n0 regs (evalE W me false e (addName K x)) n1 (Q regs))) :
    Emits (asmb dl (n + 1) (tree (.set x e)) count reg) K (namesE (.set x e) K) (fun f n0 n1 => ∀ regs, Does W me f n0 regs (evalE W me false (.set x e) K) n1 (Q regs)) := by
  rw [namesE]
  have key : Emits (fun st => (asmb dl n (tree e) 0 reg (st.locl (.str x)).1).bind fun s => some ((s.asm .setlocal reg (st.locl (.str x)).2).regs reg)) K
      (namesE e (addName K x)) (fun f n0 n1 => ∀ regs, Does W me f n0 regs (evalE W me false (.set x e) K) n1 (Q regs)) := by
    intro st hG
    obtain ⟨s, a1, a2, a3, a4⟩ := h _ (good_locl (x := x) hG)
    have g2 := (grow_asm s .setlocal reg (st.locl (.str x)).2).trans (grow_regs _ reg)
    refine ⟨_, by dsimp only; rw [a1]; rfl, ((grow_locl ..).trans a2).trans g2, good_regs (good_asm a3 ..) _, fun f hH hf regs => ?_⟩
    have hl : st.len ≤ s.len := a2.len
    have hi : find f.locals (.str x) = some (st.locl (.str x)).2 := find_prefix ((a2.locs.trans g2.locs).trans hH.locs) find_locl
    have hlt := find_lt hi
    have := hf.2.2.1
    have hat := at_asm (st := s) (op := .setlocal) (x := reg) (y := (st.locl (.str x)).2) hH hl (grow_regs _ reg) (by omega) (by omega)
    have hd := a4 f ((hH.left g2).right (Nat.le_refl _)) hf regs
    rw [len_regs, len_asm, evalE]
    refine Does.bind hd fun v r p1 => Does.bind (Does.writeVar hat hi (hQ _ _ _ p1)) fun _ r' hr' => ?_
    subst hr'
    exact Does.pure p1
  refine ((key.pre (r := reg)).congr fun st hG => ?_)
  rw [tree, asmb_leaf]
  rw [node_assign, assign_one, assignTo_set (good_regs hG _) hx]
theorem exN_set {n x e K} (hx : isUpper x = false) (h : ExN W me dl n e (addName K x)) : ExN W me dl (n + 1) (.set x e) K :=
  fun reg hr _ => emits_set hr hx (fun _ _ _ p => p.1) (h reg hr 0)

theorem assignTo_define {rec : Rec} {x : Ident} {rhs : Tree} {reg st} (hx : isUpper x = true) : assignTo rec .msg (.str x) .nil rhs 0 reg st =
    (some ((st.const (.str x)).1.asm .loadk reg (st.const (.str x)).2)).bind fun st => ((some (st.wide (reg + 1))).bind (rec rhs 0 ((reg + 1) % 256))).bind
      fun st => (some (st.asm .global reg ((reg + 1) % 256 : Nat))).bind fun st => some (st.regs ((reg + 1) % 256)) := by
  unfold assignTo target
  rw [if_pos (Or.inl rfl)]
  dsimp only
  rw [hx, if_pos rfl]
  rfl

theorem exN_define {n x e K} (hx : isUpper x = true) (h : ExN W me dl n e K) : ExN W me dl (n + 1) (.define x e) K := by
  intro reg hr count
  unfold ExOk
  rw [namesE]
  have h1 := Emits.seq (emits_loadk (K := K) (v := .str x) (a := reg) (by omega)) (Emits.seq (Emits.seq (emits_wide (n := reg + 1)) (h ((reg + 1) % 256) (Nat.mod_lt _ (by omega)) 0))
    ((emits_asm (op := .global) (a := reg) (b := (reg + 1) % 256) (by omega) (by omega)).post (r := (reg + 1) % 256)))
  refine ((h1.pre (r := reg)).congr fun st _ => ?_).mono ?_
  · rw [tree, asmb_leaf]
    rw [node_assign, assign_one, assignTo_define hx]
  · rintro f n0 n1 _ ⟨n2, ⟨rfl, b, q0, q0'⟩, n3, ⟨n4, ⟨rfl, hw⟩, q1⟩, rfl, q2⟩ regs
    rw [mod_id hw] at q1 q2
    rw [evalE]
    refine Does.silent (fun loc m => step_loadk q0 q0') (Does.bind (q1 _) fun v r ⟨p1, p2⟩ => Does.bind (Does.prim_ (reg' := upd r reg v) fun loc m => ?_) fun _ r' hr' =>
      Does.pure ⟨?_, fun i hi => ?_⟩)
    · rw [step_global q2, p1, p2 reg (by omega), upd_same]
    · rw [hr', upd_same]
    · rw [hr', upd_other (by omega), p2 i (by omega), upd_other (by omega)]

/-! ### Fields and methods -/

theorem assignTo_path {rec : Rec} {x : Ident} {rhs : Tree} {c reg st} : assignTo rec .path (.str x) .nil rhs c reg st =
    (some (phead true c reg (.str x) st)).bind fun st => ((some (st.wide (reg + 2))).bind (rec rhs 0 ((reg + 2) % 256))).bind
      fun st => (some (st.asm .setpath reg ((reg + 2) % 256 : Nat))).bind fun st => some (st.regs ((reg + 2) % 256)) := by
  unfold assignTo target
  rw [if_neg (by decide), if_pos (Or.inl rfl)]
  rfl
theorem assignTo_def {rec : Rec} {x : Ident} {rhs : Tree} {c reg st} (hc : c ≠ 0) (hx : isUpper x = false) : assignTo rec .msg (.str x) .nil rhs c reg st =
    (some (phead true c reg (.str x) st)).bind fun st => ((some (st.wide (reg + 2))).bind (rec rhs 0 ((reg + 2) % 256))).bind
      fun st => (some (st.asm .def reg ((reg + 2) % 256 : Nat))).bind fun st => some (st.regs ((reg + 2) % 256)) := by
  unfold assignTo target phead
  rw [if_pos (Or.inl rfl)]
  dsimp only
  rw [hx, if_neg Bool.false_ne_true, if_neg hc, if_neg hc]
  rfl

theorem emits_field {n count reg K e} {op : Op} {x : Ident} (hr : reg < 256) (h : ExN W me dl n e K) :
    Emits (fun st => (some (phead true count reg (.str x) st)).bind fun st => ((some (st.wide (reg + 2))).bind (asmb dl n (tree e) 0 ((reg + 2) % 256))).bind
      fun st => (some (st.asm op reg ((reg + 2) % 256 : Nat))).bind fun st => some (st.regs ((reg + 2) % 256))) K (namesE e K)
      (fun f n0 n1 => ∀ regs o, (count = 0 → o = me) → (count ≠ 0 → regs reg = o) →
        ∃ n2, n1 = n2 + 1 ∧ At f n2 op reg (reg + 2) ∧ Does W me f n0 regs (evalE W me false e K) n2 (fun v r => r (reg + 2) = v ∧ r (reg + 1) = W.const (.str x) ∧
          r reg = o ∧ ∀ i < reg, r i = regs i)) := by
  have h1 := Emits.seq (emits_phead (W := W) (me := me) (K := K) (w := true) (count := count) (x := .str x) hr)
    (Emits.seq (Emits.seq (emits_wide (n := reg + 2)) (h ((reg + 2) % 256) (Nat.mod_lt _ (by omega)) 0))
      ((emits_asm (op := op) (a := reg) (b := (reg + 2) % 256) (by omega) (by omega)).post (r := (reg + 2) % 256)))
  refine (h1.congr fun st _ => rfl).mono ?_
  rintro f n0 n1 _ ⟨n2, q0, n3, ⟨n4, ⟨rfl, hw⟩, q1⟩, rfl, q2⟩ regs o e0 e1
  rw [mod_id hw] at q1 q2
  refine ⟨n3, rfl, q2, Does.path (q0 regs o e0 e1) ((q1 _).conseq fun v r ⟨p1, p2⟩ => ⟨p1, ?_, ?_, fun i hi => ?_⟩)⟩
  · rw [p2 _ (by omega), upd_same]
  · rw [p2 _ (by omega), upd_other (by omega), upd_same]
  · rw [p2 _ (by omega), upd_other (by omega), upd_other (by omega)]

theorem exN_setPath {n c x e K} (hc : ∀ reg < 256, ChainOk W me dl n reg c K) (h : ExN W me dl n e (namesC c K)) : ExN W me dl (n + 1) (.setPath c x e) K := by
  intro reg hr count
  unfold ExOk
  rw [namesE]
  refine (((Emits.seq (hc reg hr) (emits_field (op := .setpath) (count := (items c).length) (x := x) hr h)).pre (r := reg)).congr fun st _ => ?_).mono ?_
  · rw [tree, asmb_leaf]
    rw [node_assign, assign_snoc]
    congr 1
  · rintro f n0 n1 _ ⟨n2, q1, q2⟩ regs
    rw [evalE]
    refine Does.bind (q1 regs) fun o r ⟨p1, p2, p3⟩ => ?_
    obtain ⟨n3, rfl, ha, hd⟩ := q2 r o (fun hl => p2 (isHere_length.2 hl)) (fun hl => p1 (by
      cases hh : c.isHere with
      | true => exact absurd (isHere_length.1 hh) hl
      | false => rfl))
    refine Does.bind hd fun v r' ⟨s1, s2, s3, s4⟩ => Does.bind (Does.prim_ (reg' := r') fun loc m => ?_) fun _ r'' hr' => ?_
    · rw [step_setpath ha, s1, s2, s3]
    · subst hr'
      exact Does.pure ⟨s3, fun i hi => by rw [s4 i hi, p3 i hi]⟩

theorem exN_defMethod {n c x e K} (hh : c.isHere = false) (hx : isUpper x = false) (hc : ∀ reg < 256, ChainOk W me dl n reg c K)
    (h : ExN W me dl n e (namesC c K)) : ExN W me dl (n + 1) (.defMethod c x e) K := by
  intro reg hr count
  have hl : (items c).length ≠ 0 := fun hl => by rw [isHere_length.2 hl] at hh; contradiction
  unfold ExOk
  rw [namesE]
  refine (((Emits.seq (hc reg hr) (emits_field (op := .def) (count := (items c).length) (x := x) hr h)).pre (r := reg)).congr fun st _ => ?_).mono ?_
  · rw [tree, asmb_leaf]
    rw [node_assign, assign_snoc]
    congr 1; funext s; rw [assignTo_def hl hx]
  · rintro f n0 n1 _ ⟨n2, q1, q2⟩ regs
    rw [evalE]
    refine Does.bind (q1 regs) fun o r ⟨p1, p2, p3⟩ => ?_
    obtain ⟨n3, rfl, ha, hd⟩ := q2 r o (fun h => absurd h hl) (fun _ => p1 hh)
    refine Does.bind hd fun v r' ⟨s1, s2, s3, s4⟩ => (Does.prim (a := reg) fun loc m => ?_).conseq fun v' r'' hr' => ⟨?_, fun i hi => ?_⟩
    · rw [step_def ha, s1, s2, s3]
    · rw [hr', upd_same]
    · rw [hr', upd_other (by omega), s4 i hi, p3 i hi]

end Potion.Send
