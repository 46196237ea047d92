import Verif.Proof.Stmt2
/-! Proof of C77_statements: by induction over programs. -/
namespace Potion.Send
open Potion Potion.Peg Potion.CompileAll Potion.Vm

variable {dl : List (BitVec 8) → Bool}

/-! ### Code -/

theorem patch_swap {st : CSt} {i j : Nat} : (st.patchB i ((st.len : Int) - i - 1)).patchB j ((st.len : Int) - j - 1) =
    (st.patchB j ((st.len : Int) - j - 1)).patchB i ((st.len : Int) - i - 1) := by
  by_cases h : i = j
  · rw [h]
  · unfold CSt.patchB
    dsimp only
    congr 1
    funext k
    by_cases h1 : k = i
    · by_cases h2 : k = j
      · omega
      · simp [h1, h]
    · by_cases h2 : k = j
      · simp [h2, Ne.symm h]
      · simp [h1, h2]

theorem each_singleton {g : Nat → Tree → CSt → Option CSt} {v : Tree} {i : Nat} {st : CSt} : each g i [v] st = g i v st := by
  rw [each]; cases g i v st <;> rfl

/-- The condition. -/
theorem cond_asmb {rec : Rec} {c : Ex} {reg : Nat} {st : CSt} : argAsmb rec (leaf .list (.tup [tree c])) reg false st = (rec (tree c) 0 reg st).map fun st => (st, reg) := by
  show (each (fun _ v => rec v 0 reg) 0 [tree c] st).map _ = _
  rw [each_singleton]

theorem ifMsg_eq {rec : Rec} {c : Ex} {b : List Tree} {st : CSt} : ifMsg rec (leaf .list (.tup [tree c])) (leaf .block (tupOf b)) 0 st =
    ((rec (tree c) 0 1 (st.wide 1)).bind fun h => (rec (leaf .block (tupOf b)) 0 0 (h.asm .notjmp 1 0)).bind fun s =>
      some (s.patchB h.len ((s.len : Int) - h.len - 1))).bind fun s => some (s.regs 1) := by
  unfold ifMsg
  dsimp only
  rw [show (0 + 1) % 256 = 1 from rfl, show 0 + 1 = 1 from rfl, cond_asmb]
  show (Option.map _ _).bind _ = _
  cases rec (tree c) 0 1 (st.wide 1) with
  | none => rfl
  | some h =>
    show (rec (leaf .block (tupOf b)) 0 0 (h.asm .notjmp 1 0)).bind _ = _
    simp only [Option.bind_some]
    cases rec (leaf .block (tupOf b)) 0 0 (h.asm .notjmp 1 0) <;> rfl

theorem elsifMsg_eq {rec : Rec} {c : Ex} {b : List Tree} {st : CSt} : elsifMsg rec (leaf .list (.tup [tree c])) (leaf .block (tupOf b)) 0 st =
    ((some (st.wide 1)).bind fun h0 => (((rec (tree c) 0 1 (h0.asm .testjmp 1 0)).bind fun h => (rec (leaf .block (tupOf b)) 0 0 (h.asm .notjmp 1 0)).bind fun s =>
      some (s.patchB h.len ((s.len : Int) - h.len - 1))).bind fun s => some (s.patchB h0.len ((s.len : Int) - h0.len - 1)))).bind fun s => some (s.regs 1) := by
  unfold elsifMsg
  dsimp only
  rw [show (0 + 1) % 256 = 1 from rfl, show 0 + 1 = 1 from rfl, cond_asmb]
  show (Option.map _ _).bind _ = _
  simp only [Option.bind_some]
  cases rec (tree c) 0 1 ((st.wide 1).asm .testjmp 1 0) with
  | none => rfl
  | some h =>
    show (rec (leaf .block (tupOf b)) 0 0 (h.asm .notjmp 1 0)).bind _ = _
    simp only [Option.bind_some]
    cases rec (leaf .block (tupOf b)) 0 0 (h.asm .notjmp 1 0) with
    | none => rfl
    | some s =>
      simp only [Option.bind_some]
      have := patch_swap (st := s) (i := st.len) (j := h.len)
      show some (CSt.regs ((s.patchB st.len ((s.len : Int) - st.len - 1)).patchB h.len ((s.len : Int) - h.len - 1)) 1) = _
      rw [this]; rfl

theorem elseMsg_eq {rec : Rec} {b : List Tree} {st : CSt} : elseMsg rec (leaf .block (tupOf b)) 0 st =
    ((some (st.wide 1)).bind fun h => (rec (leaf .block (tupOf b)) 0 0 (h.asm .testjmp 1 0)).bind fun s =>
      some (s.patchB h.len ((s.len : Int) - h.len - 1))).bind fun s => some (s.regs 1) := by
  unfold elseMsg
  dsimp only
  show (rec (leaf .block (tupOf b)) 0 0 ((st.wide 1).asm .testjmp 1 0)).bind _ = _
  simp only [Option.bind_some]
  cases rec (leaf .block (tupOf b)) 0 0 ((st.wide 1).asm .testjmp 1 0) <;> rfl

theorem block_asmb {n : Nat} {b : List Tree} {count reg st} : asmb dl (n + 1) (leaf .block (tupOf b)) count reg st =
    each (fun _ v => asmb dl n v 0 reg) 0 b (st.regs reg) := by
  unfold leaf; rw [asmb_leaf]
  cases b with
  | nil => rfl
  | cons x l => rfl

theorem whileMsg_eq {rec : Rec} {c : Ex} {b : List Tree} {st : CSt} : whileMsg rec (leaf .list (.tup [tree c])) (leaf .block (tupOf b)) 0 st =
    ((rec (tree c) 0 1 (st.wide 1)).bind fun h => (rec (leaf .block (tupOf b)) 0 0 { h.asm .notjmp 1 0 with loop := some ([], []) }).bind fun s =>
      some (closeLoop st.len (some h.len) h.loop s)).bind fun s => some (s.regs 1) := by
  unfold whileMsg
  dsimp only
  rw [show (0 + 1) % 256 = 1 from rfl, show 0 + 1 = 1 from rfl, cond_asmb]
  show (Option.map _ _).bind _ = _
  cases rec (tree c) 0 1 (st.wide 1) with
  | none => rfl
  | some h =>
    simp only [Option.map_some, Option.bind_some]
    rw [loopBody_eq rfl]
    rfl
theorem loopMsg_eq {rec : Rec} {x : Tree} {b : List Tree} {st : CSt} : loopMsg rec x .nil (leaf .block (tupOf b)) 0 0 st =
    ((some (st.wide 1)).bind fun h => (rec (leaf .block (tupOf b)) 0 0 { h with loop := some ([], []) }).bind fun s =>
      some (closeLoop h.len none h.loop s)).bind fun s => some (s.regs 1) := by
  unfold loopMsg
  rw [if_pos (show (CompileAll.isNil Tree.nil && !CompileAll.isNil (leaf Kind.block (tupOf b))) = true from rfl), loopBody_eq rfl]
  show Option.map _ _ = _
  simp only [Option.bind_some, CSt.wide]
  cases rec (leaf .block (tupOf b)) 0 0 _ <;> rfl

section Pieces
variable {V S E : Type} {W : World V S E} {me : V}

theorem XPost.weak {f : Fn} {n1 tb tc : Nat} {q : Bool} {regs regs' : Nat → V} {o : Exit V} {n : Nat} {r : Nat → V} (h : XPost f n1 tb tc q regs o n r) :
    XPost f n1 tb tc false regs' o n r := by
  cases o with
  | norm v => exact ⟨h.1, h.2.1, fun h => by contradiction⟩
  | brk v => exact h
  | cont v => exact h
  | ret v => exact h

/-- What statements emit. -/
def BOk (W : World V S E) (me : V) (dl : List (BitVec 8) → Bool) (n : Nat) (b : Stms) (K : List Ident) : Prop :=
  ∀ i, EmitsJ (each (fun _ v => asmb dl n v 0 0) i (stmTrees b)) K (namesB b K) (jumpsB true b) (jumpsB false b)
    (fun f tb tc n0 n1 => ∀ regs, Meets W me f n0 regs (RunB W me b K (regs 0)) (XPost f n1 tb tc (quietB b K) regs))
/-- What comes after an `if` is left out if register 1 is true. -/
def TOk (W : World V S E) (me : V) (dl : List (BitVec 8) → Bool) (n : Nat) (t : Tails) (K : List Ident) : Prop :=
  ∀ i, EmitsJ (each (fun i v => asmb dl n v i 0) i (tailTrees t)) K (namesT t K) (jumpsT true t) (jumpsT false t)
    (fun f tb tc n0 n1 => (t.isNone = true → n1 = n0) ∧ (∀ regs : Nat → V, W.truth (regs 1) = true → ∀ loc m, Path W me f ⟨n0, regs, loc, m⟩ ⟨n1, regs, loc, m⟩) ∧
      ∀ regs, W.truth (regs 1) = false → Meets W me f n0 regs (RunT W me t K (regs 0)) (XPost f n1 tb tc false regs))

theorem emits_block {n b K count} (h : BOk W me dl n b K) : EmitsJ (asmb dl (n + 1) (leaf .block (tupOf (stmTrees b))) count 0) K (namesB b K)
    (jumpsB true b) (jumpsB false b)
    (fun f tb tc n0 n1 => ∀ regs, Meets W me f n0 regs (RunB W me b K (regs 0)) (XPost f n1 tb tc (quietB b K) regs)) :=
  ((h 0).pre (r := 0)).congr fun _ _ => block_asmb

theorem meets_branch {f : Fn} {n0 j n1 n2 tb tc : Nat} {c : Ex} {b : Stms} {t : Tails} {K K1 K2 : List Ident} (hq : (t.isNone || quietB b K1) = true)
    (hc : ∀ regs, Does W me f n0 regs (evalE W me false c K) j (Post 1 regs)) (hj : At f j .notjmp 1 (n1 - j - 1)) (hn : j + 1 ≤ n1)
    (hb : ∀ regs, Meets W me f (j + 1) regs (RunB W me b K1 (regs 0)) (XPost f n1 tb tc (quietB b K1) regs))
    (ht : (t.isNone = true → n2 = n1) ∧ (∀ regs : Nat → V, W.truth (regs 1) = true → ∀ loc m, Path W me f ⟨n1, regs, loc, m⟩ ⟨n2, regs, loc, m⟩) ∧
      ∀ regs, W.truth (regs 1) = false → Meets W me f n1 regs (RunT W me t K2 (regs 0)) (XPost f n2 tb tc false regs)) (regs : Nat → V) :
    Meets W me f n0 regs (Then (fun s r => evalE W me false c K s = r) fun a => if W.truth a then RunB W me b K1 (regs 0) else RunT W me t K2 (regs 0))
      (XPost f n2 tb tc false regs) := by
  refine (hc regs).meets.then fun a n r h => ?_
  obtain ⟨rfl, p1, p2⟩ := h
  rw [← p2 0 (by omega)]
  cases ha : W.truth a with
  | true =>
    simp only [if_true]
    refine Meets.path (n := n + 1) (fun loc m => .step ?_ (.refl _)) ?_
    · rw [step_notjmp hj, p1, ha]; simp
    · refine (hb r).on fun o n' r' q => ?_
      cases o with
      | norm v =>
        obtain ⟨rfl, q1, q2⟩ := q
        refine ⟨n2, fun loc m => ?_, rfl, q1, fun h => by contradiction⟩
        cases hN : t.isNone with
        | true => rw [ht.1 hN]; exact .refl _
        | false =>
          rw [hN, Bool.false_or] at hq
          exact ht.2.1 r' (by rw [q2 hq 1 (by omega), p1]; exact ha) loc m
      | brk v => exact ⟨n', fun _ _ => .refl _, q⟩
      | cont v => exact ⟨n', fun _ _ => .refl _, q⟩
      | ret v => exact ⟨n', fun _ _ => .refl _, q⟩
  | false =>
    simp only [Bool.false_eq_true, if_false]
    refine Meets.path (n := n1) (fun loc m => .step ?_ (.refl _)) ((ht.2.2 r (by rw [p1]; exact ha)).conseq fun _ _ _ h => h.weak)
    rw [step_notjmp hj, p1, ha]
    simp; omega

/-- Condition and branch. -/
theorem emits_branch {n c b K} (hc : ExN W me dl (n + 1) c K) (hb : BOk W me dl n b (namesE c K)) :
    EmitsJ (fun st => (asmb dl (n + 1) (tree c) 0 1 st).bind fun h => (asmb dl (n + 1) (leaf .block (tupOf (stmTrees b))) 0 0 (h.asm .notjmp 1 0)).bind fun s =>
      some (s.patchB h.len ((s.len : Int) - h.len - 1))) K (namesB b (namesE c K)) (jumpsB true b) (jumpsB false b)
      (fun f tb tc n0 n1 => ∃ j, j + 1 ≤ n1 ∧ (∀ regs, Does W me f n0 regs (evalE W me false c K) j (Post 1 regs)) ∧ At f j .notjmp 1 (n1 - j - 1) ∧
        ∀ regs, Meets W me f (j + 1) regs (RunB W me b (namesE c K) (regs 0)) (XPost f n1 tb tc (quietB b (namesE c K)) regs)) :=
  emitsJ_jump (reg := 1) (by omega) (hc 1 (by omega) 0) (emits_block hb)

theorem tOk_none {n K} : TOk W me dl n .none K := by
  intro i
  refine (emits_id.toJ.congr fun st _ => by rw [tailTrees, each]).mono ?_
  rintro f tb tc n0 n1 _ rfl
  refine ⟨fun _ => rfl, fun _ _ _ _ => .refl _, fun regs _ => ?_⟩
  rw [RunT]
  exact Meets.stay ⟨rfl, rfl, fun h => by contradiction⟩

theorem tOk_els {n b K} (hb : BOk W me dl n b K) : TOk W me dl (n + 2) (.els b) K := by
  intro i
  rw [namesT, jumpsT, jumpsT]
  refine ((((emitsJ_jump (op := .testjmp) (reg := 1) (by omega) (emits_wide (n := 1)) (emits_block (count := 0) hb)).post (r := 1)).pre (r := 0)).congr fun st _ => ?_).mono ?_
  · rw [tailTrees, each_singleton, asmb_leaf]
    simp only [node]
    unfold msgNode
    dsimp only
    repeat rw [if_neg (by decide)]
    rw [if_pos rfl]
    exact elseMsg_eq
  · rintro f tb tc n0 n1 _ ⟨j, h1, ⟨rfl, _⟩, hj, hb⟩
    refine ⟨fun h => by simp [Tails.isNone] at h, fun regs ht loc m => .step ?_ (.refl _), fun regs ht => ?_⟩
    · rw [step_testjmp hj, ht]; simp; omega
    · rw [RunT]
      refine Meets.path (n := j + 1) (fun loc m => .step ?_ (.refl _)) ((hb regs).conseq fun _ _ _ h => h.weak)
      rw [step_testjmp hj, ht]; simp

theorem tOk_elsif {n c b t K} (hq : (t.isNone || quietB b (namesE c K)) = true) (hc : ExN W me dl (n + 1) c K) (hb : BOk W me dl n b (namesE c K))
    (ht : TOk W me dl (n + 2) t (namesB b (namesE c K))) : TOk W me dl (n + 2) (.elsif c b t) K := by
  intro i
  rw [namesT, jumpsT, jumpsT]
  have h1 := ((emitsJ_jump (op := .testjmp) (reg := 1) (by omega) (emits_wide (n := 1)) (emits_branch hc hb)).post (r := 1)).pre (r := 0)
  refine ((EmitsJ.seq h1 (ht (i + 1))).congr fun st _ => ?_).mono ?_
  · rw [tailTrees, each_cons]
    refine congrArg (fun x => Option.bind x _) ?_
    unfold under
    rw [asmb_leaf]
    simp only [node]
    unfold msgNode
    dsimp only
    repeat rw [if_neg (by decide)]
    rw [if_pos rfl]
    exact elsifMsg_eq
  · rintro f tb tc n0 n2 _ ⟨n1, ⟨j0, h1, ⟨rfl, _⟩, hj0, j, h2, hd, hj, hb⟩, ht⟩
    refine ⟨fun h => by simp [Tails.isNone] at h, fun regs h loc m => .step (s' := ⟨n1, regs, loc, m⟩) ?_ (ht.2.1 regs h loc m), fun regs h => ?_⟩
    · rw [step_testjmp hj0, h]; simp; omega
    · rw [RunT]
      refine Meets.path (n := j0 + 1) (fun loc m => .step ?_ (.refl _)) (meets_branch hq hd hj h2 hb ht regs)
      rw [step_testjmp hj0, h]; simp

/-- What a statement emits. -/
def SOk (W : World V S E) (me : V) (dl : List (BitVec 8) → Bool) (n : Nat) (x : Stm) (q : Bool) (K : List Ident) : Prop :=
  EmitsJ (asmb dl n (stmTree x) 0 0) K (namesS x K) (jumpsS true x) (jumpsS false x)
    (fun f tb tc n0 n1 => ∀ regs, Meets W me f n0 regs (RunS W me x K (regs 0)) (XPost f n1 tb tc q regs))

theorem sOk_ifs {n c b t K} (hq : (t.isNone || quietB b (namesE c K)) = true) (hc : ExN W me dl (n + 1) c K) (hb : BOk W me dl n b (namesE c K))
    (ht : TOk W me dl (n + 2) t (namesB b (namesE c K))) : SOk W me dl (n + 3) (.ifs c b t) false K := by
  unfold SOk
  rw [namesS, jumpsS, jumpsS]
  have h1 := ((((EmitsJ.seq (emits_wide (n := 1)).toJ (emits_branch hc hb)).post (r := 1)).pre (r := 0)))
  refine ((((EmitsJ.seq h1 (ht 1)).pre (r := 0)).congr fun st _ => ?_).count (by omega) (by omega)).mono ?_
  · rw [stmTree]
    show each (fun i v => asmb dl (n + 2) v i 0) 0 _ (st.regs 0) = _
    rw [each_cons]
    refine congrArg (fun x => Option.bind x _) ?_
    unfold under
    rw [asmb_leaf]
    simp only [node]
    unfold msgNode
    dsimp only
    rw [if_pos rfl]
    exact ifMsg_eq
  · rintro f tb tc n0 n2 _ ⟨n1, ⟨_, ⟨rfl, _⟩, j, h2, hd, hj, hb⟩, ht⟩ regs
    rw [RunS]
    exact meets_branch hq hd hj h2 hb ht regs

theorem sOk_while {n c b K} (hc : ExN W me dl (n + 1) c K) (hb : BOk W me dl n b (namesE c K)) (hf : fewJumps b = true) :
    SOk W me dl (n + 3) (.while c b) false K := by
  unfold SOk
  rw [namesS, jumpsS, jumpsS]
  simp only [fewJumps, Bool.and_eq_true, decide_eq_true_eq] at hf
  have h1 := emits_while (reg := 1) (by omega) ((Emits.seq (emits_wide (n := 1)) (hc 1 (by omega) 0))) (emits_block (count := 0) hb) hf.1 hf.2
  refine ((((h1.post (r := 1)).pre (r := 0)).pre (r := 0)).toJ.congr fun st _ => ?_).mono ?_
  · rw [stmTree]
    show each (fun i v => asmb dl (n + 2) v i 0) 0 _ (st.regs 0) = _
    rw [each_singleton]
    unfold under
    rw [asmb_leaf]
    simp only [node]
    unfold msgNode
    dsimp only
    repeat rw [if_neg (by decide)]
    rw [if_pos rfl]
    exact whileMsg_eq
  · rintro f tb tc n0 n1 _ ⟨j, k, h2, ⟨_, ⟨rfl, _⟩, hd⟩, hj, hk, hb⟩ regs
    rw [RunS]
    refine Meets.loop (n2 := j + 1) (fun regs loc s hA => ?_) (fun regs => (hb regs).conseq fun _ _ _ h => h.weak) hk regs
    have := hd regs loc s hA
    unfold test
    cases he : evalE W me false c K s with
    | error e => rw [he] at this; exact this
    | ok p =>
      obtain ⟨a, s'⟩ := p
      rw [he] at this
      obtain ⟨r, l, p, q, p1, p2⟩ := this
      have hs : ∀ m, Path W me f ⟨j, r, l, m⟩ ⟨if W.truth a then j + 1 else n1, r, l, m⟩ := fun m => .step (by
        rw [step_notjmp hj, p1]
        cases W.truth a <;> simp
        omega) (.refl _)
      exact ⟨_, r, l, p.trans (hs _), q, p2 0 (by omega), rfl⟩

theorem sOk_loop {n b K} (hb : BOk W me dl n b K) (hf : fewJumps b = true) : SOk W me dl (n + 3) (.loop b) false K := by
  unfold SOk
  rw [namesS, jumpsS, jumpsS]
  simp only [fewJumps, Bool.and_eq_true, decide_eq_true_eq] at hf
  have h1 := Emits.seq (emits_wide (n := 1)) (emits_loop (emits_block (count := 0) hb) hf.1 hf.2)
  refine ((((h1.post (r := 1)).pre (r := 0)).pre (r := 0)).toJ.congr fun st _ => ?_).mono ?_
  · rw [stmTree]
    show each (fun i v => asmb dl (n + 2) v i 0) 0 _ (st.regs 0) = _
    rw [each_singleton, asmb_leaf]
    simp only [node]
    unfold msgNode
    dsimp only
    repeat rw [if_neg (by decide)]
    rw [if_pos rfl]
    exact loopMsg_eq
  · rintro f tb tc n0 n1 _ ⟨m0, ⟨hm, _⟩, k, hk, hb⟩ regs
    subst hm
    rw [RunS]
    exact Meets.loop (c := fun s => .ok (true, s)) (n2 := m0) (fun regs loc s hA => ⟨m0, regs, loc, .refl _, hA, rfl, rfl⟩) (fun regs => (hb regs).conseq fun _ _ _ h => h.weak) hk regs

theorem sOk_brk {n K q} : SOk W me dl (n + 2) .brk q K := by
  unfold SOk
  rw [namesS, jumpsS, jumpsS]
  refine ((((emits_jumpMsg true).post (r := 0)).pre (r := 0)).pre (r := 0)).congr (fun st _ => ?_) |>.mono ?_
  · rw [stmTree]
    show each (fun i v => asmb dl (n + 1) v i 0) 0 _ (st.regs 0) = _
    rw [each_singleton, asmb_leaf]
    simp only [node]
    unfold msgNode
    dsimp only
    repeat rw [if_neg (by decide)]
    rw [if_pos rfl]
    cases jumpMsg true _ <;> rfl
  · rintro f tb tc n0 n1 _ h regs
    rw [RunS]
    exact Meets.stay ⟨h, rfl⟩
theorem sOk_cont {n K q} : SOk W me dl (n + 2) .cont q K := by
  unfold SOk
  rw [namesS, jumpsS, jumpsS]
  refine ((((emits_jumpMsg false).post (r := 0)).pre (r := 0)).pre (r := 0)).congr (fun st _ => ?_) |>.mono ?_
  · rw [stmTree]
    show each (fun i v => asmb dl (n + 1) v i 0) 0 _ (st.regs 0) = _
    rw [each_singleton, asmb_leaf]
    simp only [node]
    unfold msgNode
    dsimp only
    repeat rw [if_neg (by decide)]
    rw [if_pos rfl]
    cases jumpMsg false _ <;> rfl
  · rintro f tb tc n0 n1 _ h regs
    rw [RunS]
    exact Meets.stay ⟨h, rfl⟩

theorem emits_ret {K} : Emits (fun st => some (st.asm .ret 0 0)) K K (fun f n0 _ => At f n0 .ret 0 0) := by
  intro st hG
  exact ⟨_, rfl, grow_asm .., good_asm hG .., fun f hH hf => at_asm hH (Nat.le_refl _) (.refl _) (by omega) (by omega)⟩

theorem sOk_ret {n e K q} (he : ExN W me dl n e K) : SOk W me dl (n + 2) (.ret e) q K := by
  unfold SOk
  rw [namesS, jumpsS, jumpsS]
  refine (((((Emits.seq (he 0 (by omega) 0) emits_ret).post (r := 0)).pre (r := 0)).pre (r := 0)).toJ.congr fun st _ => ?_).mono ?_
  · rw [stmTree]
    show each (fun i v => asmb dl (n + 1) v i 0) 0 _ (st.regs 0) = _
    rw [each_singleton, asmb_leaf]
    simp only [node]
    unfold msgNode
    dsimp only
    repeat rw [if_neg (by decide)]
    rw [if_pos rfl, cond_asmb]
    cases asmb dl n (tree e) 0 0 _ <;> rfl
  · rintro f tb tc n0 n2 _ ⟨n1, h, hr⟩ regs
    rw [RunS]
    refine (h regs).meets.then fun a n r h => ?_
    obtain ⟨rfl, p1, p2⟩ := h
    exact Meets.stay ⟨hr, p1⟩

theorem bOk_nil {n K} : BOk W me dl n .nil K := by
  intro i
  refine (emits_id.toJ.congr fun st _ => by rw [stmTrees, each]).mono ?_
  rintro f tb tc n0 n1 _ rfl regs
  rw [RunB]
  exact Meets.stay ⟨rfl, rfl, fun _ _ _ => rfl⟩

theorem bOk_cons {n x b K} (hx : SOk W me dl n x (quietS x K) K) (hb : BOk W me dl n b (namesS x K)) : BOk W me dl n (.cons x b) K := by
  intro i
  rw [namesB, jumpsB, jumpsB]
  refine ((EmitsJ.seq hx (hb (i + 1))).congr fun st _ => by rw [stmTrees, each_cons]).mono ?_
  rintro f tb tc n0 n2 _ ⟨n1, h1, h2⟩ regs
  rw [RunB]
  refine (h1 regs).then fun o n r h => ?_
  cases o with
  | norm v =>
    obtain ⟨rfl, rfl, p2⟩ := h
    refine (h2 r).conseq fun o n' r' h => ?_
    cases o with
    | norm v =>
      refine ⟨h.1, h.2.1, fun hq i hi => ?_⟩
      rw [quietB, Bool.and_eq_true] at hq
      rw [h.2.2 hq.2 i hi, p2 hq.1 i hi]
    | brk v => exact h
    | cont v => exact h
    | ret v => exact h
  | brk v => exact Meets.stay h
  | cont v => exact Meets.stay h
  | ret v => exact Meets.stay h

end Pieces

theorem quiet_ok : ∀ (e : Ex) (K : List Ident), quietE e K = true → okE e = true → ∃ N, ∀ n ≥ N, ∀ (V S E : Type) (W : World V S E) (me : V),
    Emits (asmb dl n (tree e) 0 0) K (namesE e K) (fun f n0 n1 => ∀ regs, Does W me f n0 regs (evalE W me false e K) n1 (fun v r => r = upd regs 0 v))
  | .chain (.lit v), K, _, h => ⟨2, fun n hn V S E W me => by
      obtain ⟨n, rfl⟩ : ∃ m, n = m + 2 := ⟨n - 2, by omega⟩
      simp only [okE, okC, Bool.and_eq_true] at h
      rw [namesE, namesC]
      refine (((emits_lit' (W := W) (me := me) (dl := dl) (n := n) (count := 0) (reg := 0) (K := K) (by omega) h.1).pre (r := 0)).congr fun st _ => ?_).mono fun f n0 n1 _ q regs => ?_
      · rw [tree, items]
        show each (fun i v => asmb dl (n + 1) v i 0) 0 _ (st.regs 0) = _
        rw [each_singleton]
      · rw [evalE_chain, evalC]; exact q regs⟩
  | .chain .me, K, _, _ => ⟨2, fun n hn V S E W me => by
      obtain ⟨n, rfl⟩ : ∃ m, n = m + 2 := ⟨n - 2, by omega⟩
      rw [namesE, namesC]
      refine (((emits_me' (W := W) (me := me) (dl := dl) (n := n) (count := 0) (reg := 0) (K := K) (by omega)).pre (r := 0)).congr fun st _ => ?_).mono fun f n0 n1 _ q regs => ?_
      · rw [tree, items]
        show each (fun i v => asmb dl (n + 1) v i 0) 0 _ (st.regs 0) = _
        rw [each_singleton]
      · rw [evalE_chain, evalC]; exact q regs⟩
  | .chain (.send .here m), K, hm, h => ⟨2, fun n hn V S E W me => by
      obtain ⟨n, rfl⟩ : ∃ m, n = m + 2 := ⟨n - 2, by omega⟩
      have hm : m ∈ K := by simpa [quietE] using hm
      simp only [okE, okC, Bool.and_eq_true] at h
      rw [namesE, namesC, namesC]
      refine (((emits_var' (W := W) (me := me) (dl := dl) (n := n) (reg := 0) (K := K) (by omega) h.1.2 hm).pre (r := 0)).congr fun st _ => ?_).mono fun f n0 n1 _ q regs => ?_
      · rw [tree, items, items]
        show each (fun i v => asmb dl (n + 1) v i 0) 0 _ (st.regs 0) = _
        rw [List.nil_append, each_singleton]
      · rw [evalE_chain, evalC, if_pos ⟨rfl, hm⟩]; exact q regs⟩
  | .set x e, K, hq, h => by
      rw [quietE] at hq
      simp only [okE, Bool.and_eq_true, Bool.not_eq_true'] at h
      obtain ⟨N, hN⟩ := quiet_ok e (addName K x) hq h.2
      refine ⟨N + 1, fun n hn V S E W me => ?_⟩
      obtain ⟨n, rfl⟩ : ∃ m, n = m + 1 := ⟨n - 1, by omega⟩
      exact emits_set (Q := fun regs v r => r = upd regs 0 v) (by omega) h.1 (fun regs v r h => by rw [h]; exact upd_same) (hN n (by omega) V S E W me)
  | .chain (.send (.lit _) _), _, h, _ | .chain (.send .me _), _, h, _ | .chain (.send (.list _) _), _, h, _ | .chain (.send (.not _) _), _, h, _
  | .chain (.send (.bitnot _) _), _, h, _ | .chain (.send (.send _ _) _), _, h, _ | .chain (.send (.sendArgs ..) _), _, h, _ | .chain (.send (.apply ..) _), _, h, _
  | .chain (.send (.ask ..) _), _, h, _ | .chain (.send (.askArgs ..) _), _, h, _ | .chain (.send (.path ..) _), _, h, _ | .chain (.send (.index ..) _), _, h, _
  | .chain (.send (.licks _) _), _, h, _ | .chain .here, _, h, _ | .chain (.list _), _, h, _ | .chain (.not _), _, h, _ | .chain (.bitnot _), _, h, _
  | .chain (.sendArgs ..), _, h, _ | .chain (.apply ..), _, h, _ | .chain (.ask ..), _, h, _ | .chain (.askArgs ..), _, h, _ | .chain (.path ..), _, h, _
  | .chain (.inc ..), _, h, _ | .chain (.send (.inc ..) _), _, h, _ | .chain (.index ..), _, h, _ | .chain (.licks _), _, h, _ | .bin .., _, h, _ | .and .., _, h, _ | .or .., _, h, _ | .define .., _, h, _ | .setPath .., _, h, _
  | .defMethod .., _, h, _ | .setCall .., _, h, _ => by simp [quietE] at h


mutual
theorem stm_ok : ∀ (x : Stm) (K : List Ident), okS x K = true → ∃ N, ∀ n ≥ N, ∀ (V S E : Type) (W : World V S E) (me : V), SOk W me dl n x (quietS x K) K
  | .ex e, K, h => by
      rw [okS] at h
      cases hq : quietE e K with
      | true =>
        obtain ⟨N, hN⟩ := quiet_ok (dl := dl) e K hq h
        refine ⟨N, fun n hn V S E W me => ?_⟩
        unfold SOk
        rw [stmTree, namesS, jumpsS, jumpsS]
        refine (hN n hn V S E W me).toJ.mono fun f tb tc n0 n1 _ q regs => ?_
        rw [RunS]
        refine (q regs).meets.then fun a n r h => ?_
        obtain ⟨rfl, rfl⟩ := h
        exact Meets.stay ⟨rfl, upd_same, fun _ i hi => upd_other hi⟩
      | false =>
        obtain ⟨N, hN⟩ := ex_ok dl e h
        refine ⟨N, fun n hn V S E W me => ?_⟩
        unfold SOk
        rw [stmTree, namesS, jumpsS, jumpsS]
        refine ((hN n hn V S E W me K).1 0 (by omega) 0).toJ.mono fun f tb tc n0 n1 _ q regs => ?_
        rw [RunS, quietS, hq]
        refine (q regs).meets.then fun a n r h => ?_
        obtain ⟨rfl, h1, _⟩ := h
        exact Meets.stay ⟨rfl, h1, fun h => by contradiction⟩
  | .ret e, K, h => by
      rw [okS] at h
      obtain ⟨N, hN⟩ := ex_ok dl e h
      refine ⟨N + 2, fun n hn V S E W me => ?_⟩
      obtain ⟨n, rfl⟩ : ∃ m, n = m + 2 := ⟨n - 2, by omega⟩
      exact sOk_ret (hN n (by omega) V S E W me K).1
  | .brk, K, _ => ⟨2, fun n hn V S E W me => by
      obtain ⟨n, rfl⟩ : ∃ m, n = m + 2 := ⟨n - 2, by omega⟩
      exact sOk_brk⟩
  | .cont, K, _ => ⟨2, fun n hn V S E W me => by
      obtain ⟨n, rfl⟩ : ∃ m, n = m + 2 := ⟨n - 2, by omega⟩
      exact sOk_cont⟩
  | .ifs c b t, K, h => by
      simp only [okS, Bool.and_eq_true] at h
      obtain ⟨N1, h1⟩ := ex_ok dl c h.1.1.1
      obtain ⟨N2, h2⟩ := stms_ok b _ h.1.1.2
      obtain ⟨N3, h3⟩ := tails_ok t _ h.2
      refine ⟨N1 + N2 + N3 + 3, fun n hn V S E W me => ?_⟩
      obtain ⟨n, rfl⟩ : ∃ m, n = m + 3 := ⟨n - 3, by omega⟩
      exact sOk_ifs h.1.2 (h1 (n + 1) (by omega) V S E W me K).1 (h2 n (by omega) V S E W me) (h3 (n + 2) (by omega) V S E W me)
  | .while c b, K, h => by
      simp only [okS, Bool.and_eq_true] at h
      obtain ⟨N1, h1⟩ := ex_ok dl c h.1.1
      obtain ⟨N2, h2⟩ := stms_ok b _ h.1.2
      refine ⟨N1 + N2 + 3, fun n hn V S E W me => ?_⟩
      obtain ⟨n, rfl⟩ : ∃ m, n = m + 3 := ⟨n - 3, by omega⟩
      exact sOk_while (h1 (n + 1) (by omega) V S E W me K).1 (h2 n (by omega) V S E W me) h.2
  | .loop b, K, h => by
      simp only [okS, Bool.and_eq_true] at h
      obtain ⟨N2, h2⟩ := stms_ok b _ h.1
      refine ⟨N2 + 3, fun n hn V S E W me => ?_⟩
      obtain ⟨n, rfl⟩ : ∃ m, n = m + 3 := ⟨n - 3, by omega⟩
      exact sOk_loop (h2 n (by omega) V S E W me) h.2
theorem stms_ok : ∀ (b : Stms) (K : List Ident), okB b K = true → ∃ N, ∀ n ≥ N, ∀ (V S E : Type) (W : World V S E) (me : V), BOk W me dl n b K
  | .nil, K, _ => ⟨0, fun n _ V S E W me => bOk_nil⟩
  | .cons x b, K, h => by
      simp only [okB, Bool.and_eq_true] at h
      obtain ⟨N1, h1⟩ := stm_ok x K h.1
      obtain ⟨N2, h2⟩ := stms_ok b _ h.2
      exact ⟨N1 + N2, fun n hn V S E W me => bOk_cons (h1 n (by omega) V S E W me) (h2 n (by omega) V S E W me)⟩
theorem tails_ok : ∀ (t : Tails) (K : List Ident), okT t K = true → ∃ N, ∀ n ≥ N, ∀ (V S E : Type) (W : World V S E) (me : V), TOk W me dl n t K
  | .none, K, _ => ⟨0, fun n _ V S E W me => tOk_none⟩
  | .els b, K, h => by
      rw [okT] at h
      obtain ⟨N2, h2⟩ := stms_ok b _ h
      refine ⟨N2 + 2, fun n hn V S E W me => ?_⟩
      obtain ⟨n, rfl⟩ : ∃ m, n = m + 2 := ⟨n - 2, by omega⟩
      exact tOk_els (h2 n (by omega) V S E W me)
  | .elsif c b t, K, h => by
      simp only [okT, Bool.and_eq_true] at h
      obtain ⟨N1, h1⟩ := ex_ok dl c h.1.1.1
      obtain ⟨N2, h2⟩ := stms_ok b _ h.1.1.2
      obtain ⟨N3, h3⟩ := tails_ok t _ h.2
      refine ⟨N1 + N2 + N3 + 2, fun n hn V S E W me => ?_⟩
      obtain ⟨n, rfl⟩ : ∃ m, n = m + 2 := ⟨n - 2, by omega⟩
      exact tOk_elsif h.1.2 (h1 (n + 1) (by omega) V S E W me K).1 (h2 n (by omega) V S E W me) (h3 (n + 2) (by omega) V S E W me)
end

theorem programS_ok (b : Stms) (h : okP b = true) : ∃ N, ∀ n ≥ N, ∃ f, compile dl n (programS b) = some f ∧
    (f.fits → ∀ (V S E : Type) (W : World V S E) (me : V) (reg : Nat → V) (m : S),
      (∀ r, RunP W me b (reg 0) ⟨fun _ => W.const .nil, m⟩ r → Gives W me f ⟨0, reg, fun _ => W.const .nil, m⟩ r) ∧
      ((∀ r, ¬ RunP W me b (reg 0) ⟨fun _ => W.const .nil, m⟩ r) → ∀ k, ∃ t, run W me f k ⟨0, reg, fun _ => W.const .nil, m⟩ = .go t)) := by
  simp only [okP, Bool.and_eq_true, decide_eq_true_eq] at h
  obtain ⟨N, hN⟩ := stms_ok (dl := dl) b [] h.1.1
  refine ⟨N + 1, fun n hn => ?_⟩
  obtain ⟨n, rfl⟩ : ∃ m, n = m + 1 := ⟨n - 1, by omega⟩
  have hG : Good ((CSt.open [] []).regs 0) [] := good_regs ⟨rfl, rfl, rfl⟩ 0
  have hR : Room ((CSt.open [] []).regs 0).loop (jumpsB true b) (jumpsB false b) := ⟨h.1.2, h.2⟩
  have hn' : n ≥ N := by omega
  let W0 : World Unit Unit Unit := ⟨fun _ => (), fun _ => false, fun _ => (), fun _ _ => .other, fun _ _ _ => .error (), fun _ _ _ => .error (), fun _ _ => .error (),
    fun _ _ => (), fun _ _ => (), fun _ _ _ _ => .error (), fun _ _ _ _ _ => (), fun _ _ _ _ => .error (), fun _ _ _ _ => .error (), fun _ _ => .error (),
    fun _ => .error (), fun _ _ _ => .error (), fun _ _ _ _ => .error (), fun _ _ _ => .error (), fun _ _ _ _ => .error (), fun _ _ _ => .error (), fun _ _ _ _ => .error (),
    fun _ _ _ => .error (), fun _ _ _ => .error (), fun _ _ _ _ => .error (), fun _ _ => ()⟩
  obtain ⟨st, _, _, h1, _⟩ := hN n hn' Unit Unit Unit W0 () 0 _ hG hR
  have hcode : compile dl (n + 1) (programS b) = some (st.close []) := by
    unfold programS
    cases hb : stmTrees b with
    | nil =>
      rw [hb] at h1
      rw [each] at h1; cases h1
      rfl
    | cons x l =>
      rw [hb] at h1
      show compile dl (n + 1) (leaf .code (.tup (x :: l))) = _
      rw [compile_code, h1]; rfl
  refine ⟨st.close [], hcode, fun hf V S E W me reg m => ?_⟩
  obtain ⟨st', B, D, h1', hg, hB, hD, _, hC⟩ := hN n hn' V S E W me 0 _ hG hR
  rw [h1] at h1'
  cases h1'
  have hB : B = [] := List.eq_nil_of_length_eq_zero (hB.trans h.1.2)
  have hD : D = [] := List.eq_nil_of_length_eq_zero (hD.trans h.2)
  subst hB hD
  have hgl := hg.grow.len
  dsimp only at hgl
  have hH : Holds (st.close []) ((CSt.open [] []).regs 0) (st.asm .ret 0 0) :=
    ⟨Nat.le_refl _, fun _ _ _ => rfl, List.prefix_refl _, List.prefix_refl _, id⟩
  have hat := at_asm (st := st) (op := .ret) (x := 0) (y := 0) hH hgl (.refl _) (by omega) (by omega)
  -- without a loop around it, `break` and `continue` cannot lead anywhere
  have hHJ : ∀ t, HoldsJ (st.close []) ((CSt.open [] []).regs 0) st [] [] t t := fun t =>
    ⟨Nat.le_succ _, fun k _ hk _ => by
      show (st.asm .ret 0 0).code k = _
      simp only [CSt.asm]; rw [if_neg (by omega)], List.prefix_refl _, List.prefix_refl _, id, fun k hk => by simp at hk, fun k hk => by simp at hk⟩
  have hd := hC _ st.len st.len (hHJ _) hf reg (fun _ => W.const .nil) ⟨fun _ => W.const .nil, m⟩ (fun _ _ _ => rfl)
  rw [show ((CSt.open [] []).regs 0).len = 0 from rfl] at hd
  refine ⟨fun r hr => ?_, fun hno k => ?_⟩
  · rcases hr with ⟨e, hr, rfl⟩ | ⟨o, s', hr, rfl⟩
    · obtain ⟨t, p, q⟩ := hd.1 _ hr
      obtain ⟨k, hk⟩ := p.run
      refine ⟨k + 1, ?_⟩
      rw [hk 1, run, q]
    · obtain ⟨n', reg', loc', p, _, q⟩ := hd.1 _ hr
      obtain ⟨k, hk⟩ := p.run
      have stop : ∀ {n'}, At (st.close []) n' .ret 0 0 → step W me (st.close []) ⟨n', reg', loc', s'.mem⟩ = .done (reg' 0) s'.mem := fun h => step_ret h
      cases o with
      | norm v =>
        obtain ⟨rfl, rfl, _⟩ := q
        refine ⟨k + 1, ?_⟩
        rw [hk 1, run, stop hat]; rfl
      | ret v =>
        obtain ⟨q, rfl⟩ := q
        refine ⟨k + 1, ?_⟩
        rw [hk 1, run, stop q]; rfl
      | brk v =>
        obtain ⟨q, rfl⟩ := q
        refine ⟨k + 2, ?_⟩
        rw [hk 2, show (2 : Nat) = 1 + 1 from rfl, run, q.step]
        show run _ _ _ 1 _ = _
        rw [run, stop hat]; rfl
      | cont v =>
        obtain ⟨q, rfl⟩ := q
        refine ⟨k + 2, ?_⟩
        rw [hk 2, show (2 : Nat) = 1 + 1 from rfl, run, q.step]
        show run _ _ _ 1 _ = _
        rw [run, stop hat]; rfl
  · rcases hd.2 k with h | ⟨r, hr⟩
    · exact h
    · cases r with
      | error e => exact absurd (.inl ⟨e, hr, rfl⟩) (hno (.error e))
      | ok p => exact absurd (.inr ⟨p.1, p.2, hr, rfl⟩) (hno (.ok (p.1.value, p.2)))

end Potion.Send
