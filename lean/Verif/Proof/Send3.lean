import Verif.Proof.Send2
/-! Proof of C77: what each piece of the compiler emits. -/
namespace Potion.Send
open Potion Potion.Peg Potion.CompileAll Potion.Vm

variable {V S E : Type} {W : World V S E} {me : V}

/-- `G` always succeeds among the variables `K`, and the code it appends satisfies `C`. -/
def Emits (G : CSt → Option CSt) (K K' : List Ident) (C : Fn → Nat → Nat → Prop) : Prop :=
  ∀ st, Good st K → ∃ st', G st = some st' ∧ Grow st st' ∧ Good st' K' ∧ ∀ f, Holds f st st' → f.fits → C f st.len st'.len
/-- The same for arguments: the last register is returned. -/
def EmitsA (G : CSt → Option (CSt × Nat)) (K K' : List Ident) (C : Fn → Nat → Nat → Nat → Prop) : Prop :=
  ∀ st, Good st K → ∃ st' b, G st = some (st', b) ∧ b < 256 ∧ Grow st st' ∧ Good st' K' ∧ ∀ f, Holds f st st' → f.fits → C f st.len st'.len b

theorem Emits.mono {G K K' C C'} (h : Emits G K K' C) (hC : ∀ f n0 n1, f.fits → C f n0 n1 → C' f n0 n1) : Emits G K K' C' := by
  intro st hG
  obtain ⟨st', h1, h2, h3, h4⟩ := h st hG
  exact ⟨st', h1, h2, h3, fun f hH hf => hC _ _ _ hf (h4 f hH hf)⟩
theorem EmitsA.mono {G K K' C C'} (h : EmitsA G K K' C) (hC : ∀ f n0 n1 b, f.fits → b < 256 → C f n0 n1 b → C' f n0 n1 b) : EmitsA G K K' C' := by
  intro st hG
  obtain ⟨st', b, h1, h2, h3, h3', h4⟩ := h st hG
  exact ⟨st', b, h1, h2, h3, h3', fun f hH hf => hC _ _ _ _ hf h2 (h4 f hH hf)⟩
theorem Emits.congr {G G' K K' C} (h : Emits G K K' C) (hG : ∀ st, Good st K → G' st = G st) : Emits G' K K' C := by
  intro st hs
  obtain ⟨st', h1, h2⟩ := h st hs
  exact ⟨st', by rw [hG st hs]; exact h1, h2⟩
theorem EmitsA.congr {G G' K K' C} (h : EmitsA G K K' C) (hG : ∀ st, Good st K → G' st = G st) : EmitsA G' K K' C := by
  intro st hs
  obtain ⟨st', b, h1, h2⟩ := h st hs
  exact ⟨st', b, by rw [hG st hs]; exact h1, h2⟩

theorem Emits.seq {G G' K K1 K2 C C'} (h : Emits G K K1 C) (h' : Emits G' K1 K2 C') :
    Emits (fun st => (G st).bind G') K K2 (fun f n0 n2 => ∃ n1, C f n0 n1 ∧ C' f n1 n2) := by
  intro st hG
  obtain ⟨s1, a1, a2, a3, a4⟩ := h st hG
  obtain ⟨s2, b1, b2, b3, b4⟩ := h' s1 a3
  refine ⟨s2, by simp [a1, b1], a2.trans b2, b3, fun f hH hf => ⟨s1.len, a4 f (hH.left b2) hf, b4 f (hH.right a2.len) hf⟩⟩
theorem EmitsA.seq {G K K1 K2 C} {G' : Nat → CSt → Option CSt} {C' : Nat → Fn → Nat → Nat → Prop} (h : EmitsA G K K1 C) (h' : ∀ b < 256, Emits (G' b) K1 K2 (C' b)) :
    Emits (fun st => (G st).bind fun p => G' p.2 p.1) K K2 (fun f n0 n2 => ∃ b n1, C f n0 n1 b ∧ C' b f n1 n2) := by
  intro st hG
  obtain ⟨s1, b, a1, hb, a2, a3, a4⟩ := h st hG
  obtain ⟨s2, b1, b2, b3, b4⟩ := h' b hb s1 a3
  refine ⟨s2, by simp [a1, b1], a2.trans b2, b3, fun f hH hf => ⟨b, s1.len, a4 f (hH.left b2) hf, b4 f (hH.right a2.len) hf⟩⟩
theorem Emits.seqA {G G' K K1 K2 C C'} (h : Emits G K K1 C) (h' : EmitsA G' K1 K2 C') :
    EmitsA (fun st => (G st).bind G') K K2 (fun f n0 n2 b => ∃ n1, C f n0 n1 ∧ C' f n1 n2 b) := by
  intro st hG
  obtain ⟨s1, a1, a2, a3, a4⟩ := h st hG
  obtain ⟨s2, b, b1, hb, b2, b3, b4⟩ := h' s1 a3
  refine ⟨s2, b, by simp [a1, b1], hb, a2.trans b2, b3, fun f hH hf => ⟨s1.len, a4 f (hH.left b2) hf, b4 f (hH.right a2.len) hf⟩⟩

theorem emits_asm {K op} {a b : Nat} (ha : a < 2048) (hb : b < 2048) :
    Emits (fun st => some (st.asm op a b)) K K (fun f n0 n1 => n1 = n0 + 1 ∧ At f n0 op a b) :=
  fun st hG => ⟨_, rfl, grow_asm .., good_asm hG .., fun _ hH _ => ⟨rfl, at_asm hH (Nat.le_refl _) (.refl _) ha hb⟩⟩
theorem emits_wide {K n} : Emits (fun st => some (st.wide n)) K K (fun _ n0 n1 => n1 = n0 ∧ n < 256) :=
  fun _ hG => ⟨_, rfl, grow_wide .., good_wide hG .., fun _ hH hf => ⟨rfl, wide_small hH hf (.refl _)⟩⟩
theorem emits_regs {K n} : Emits (fun st => some (st.regs n)) K K (fun _ n0 n1 => n1 = n0) :=
  fun _ hG => ⟨_, rfl, grow_regs .., good_regs hG .., fun _ _ _ => len_regs ..⟩
theorem emits_id {K} : Emits some K K (fun _ n0 n1 => n1 = n0) :=
  fun st hG => ⟨st, rfl, .refl _, hG, fun _ _ _ => rfl⟩
theorem emits_loadk {K v} {a : Nat} (ha : a < 2048) : Emits (fun st => some ((st.const v).1.asm .loadk a (st.const v).2)) K K
    (fun f n0 n1 => n1 = n0 + 1 ∧ ∃ b, At f n0 .loadk a b ∧ f.values[b]? = some v) := by
  intro st hG
  refine ⟨_, rfl, (grow_const st v).trans (grow_asm ..), good_asm (good_const hG _) .., fun f hH hf => ?_⟩
  obtain ⟨h1, h2⟩ := const_small hH hf (grow_asm (st.const v).1 .loadk a (st.const v).2)
  exact ⟨rfl, _, at_asm (st := (st.const v).1) hH (Nat.le_refl _) (.refl _) ha h1, h2⟩
theorem emits_asm_ {K op} {a : Nat} (ha : a < 2048) : Emits (fun st => some (st.asm op a 0)) K K (fun f n0 n1 => n1 = n0 + 1 ∧ At f n0 op a 0) :=
  emits_asm (b := 0) ha (by omega)

theorem imm_small {w : BitVec 64} (h : Ops.immediate w = true) : -2048 ≤ w.toInt ∧ w.toInt < 2048 := by
  unfold Ops.immediate at h
  simp only [Bool.and_eq_true, beq_iff_eq] at h
  rw [h.2, BitVec.toInt_signExtend_of_le (by omega)]
  have h1 := BitVec.le_toInt (w.setWidth 12)
  have h2 := BitVec.toInt_lt (x := w.setWidth 12)
  omega

/-- A literal. -/
theorem emits_load {K v} {a : Nat} (ha : a < 256) : Emits (fun st => some (st.load a v)) K K
    (fun f n0 n1 => n1 = n0 + 1 ∧ ∀ (W : World V S E) me reg loc m, step W me f ⟨n0, reg, loc, m⟩ = St.res ⟨n0, reg, loc, m⟩ a (.ok (W.const v, m))) := by
  have hk : Emits (fun st => some ((st.const v).1.asm .loadk a (st.const v).2)) K K
      (fun f n0 n1 => n1 = n0 + 1 ∧ ∀ (W : World V S E) me reg loc m, step W me f ⟨n0, reg, loc, m⟩ = St.res ⟨n0, reg, loc, m⟩ a (.ok (W.const v, m))) :=
    (emits_loadk (by omega)).mono fun f n0 n1 _ ⟨h1, b, h2, h3⟩ => ⟨h1, fun W me reg loc m => step_loadk h2 h3⟩
  unfold CSt.load
  split
  · rename_i w
    by_cases hi : Ops.immediate w = true
    · simp only [hi, if_true]
      intro st hG
      refine ⟨_, rfl, grow_asm .., good_asm hG .., fun f hH hf => ⟨rfl, fun W me reg loc m => ?_⟩⟩
      obtain ⟨h1, h2⟩ := imm_small hi
      have hl := hH.len
      refine step_loadpn (by simp at hl; omega) ?_
      rw [hH.code st.len (Nat.le_refl _) (by simp)]
      simp only [CSt.asm, if_pos]
      rw [trunc_id (by omega) (by omega), trunc_id (by omega) (by omega)]
    · simp only [hi]; exact hk
  · exact hk

/-- The value is in register `r`, those below are as before. -/
def Post (r : Nat) (regs : Nat → V) (v : V) (regs' : Nat → V) : Prop := regs' r = v ∧ ∀ i < r, regs' i = regs i

theorem mod_id {n : Nat} (h : n < 256) : n % 256 = n := Nat.mod_eq_of_lt h

/-! ### Messages -/

/-- compile.c:778-797: the receiver is put behind the message, the message looked up. -/
def head (count reg : Nat) (x : Tree) (op : Op) (st : CSt) : CSt :=
  let oreg := (reg + 1) % 256
  let st0 := ((st.wide (reg + 1)).const x).1
  let n := ((st.wide (reg + 1)).const x).2
  let st1 := if count = 0 then st0.asm .self oreg 0 else st0.asm .move oreg reg
  (st1.asm .loadk reg n).asm op reg oreg

theorem emits_head {K count reg x} {op : Op} {p : V → V → S → Except E (V × S)} (hr : reg < 256)
    (hp : ∀ {f n a b reg loc m}, At f n op a b → step W me f ⟨n, reg, loc, m⟩ = St.res ⟨n, reg, loc, m⟩ a (p (reg b) (reg a) m)) :
    Emits (fun st => some (head count reg x op st)) K K (fun f n0 n1 => reg + 1 < 256 ∧ ∀ regs r, (count = 0 → r = me) → (count ≠ 0 → regs reg = r) →
      Does W me f n0 regs (prim (p r (W.const x))) n1 (fun fv r' => r' reg = fv ∧ r' (reg + 1) = r ∧ ∀ i < reg, r' i = regs i)) := by
  intro st hG
  have h1 := (grow_wide st (reg + 1)).trans (grow_const _ x)
  have g1 := good_const (good_wide hG (reg + 1)) x
  have e : ∃ st1, st1 = (if count = 0 then ((st.wide (reg + 1)).const x).1.asm .self ((reg + 1) % 256 : Nat) 0
      else ((st.wide (reg + 1)).const x).1.asm .move ((reg + 1) % 256 : Nat) reg) := ⟨_, rfl⟩
  obtain ⟨st1, e⟩ := e
  have h2 : Grow ((st.wide (reg + 1)).const x).1 st1 := by rw [e]; split <;> exact grow_asm ..
  have g2 : Good st1 K := by rw [e]; split <;> exact good_asm g1 ..
  have l2 : st1.len = st.len + 1 := by rw [e]; split <;> rfl
  have h3 := grow_asm st1 .loadk reg ((st.wide (reg + 1)).const x).2
  have h4 := grow_asm (st1.asm .loadk reg ((st.wide (reg + 1)).const x).2) op reg ((reg + 1) % 256 : Nat)
  refine ⟨(st1.asm .loadk reg ((st.wide (reg + 1)).const x).2).asm op reg ((reg + 1) % 256 : Nat), by rw [e]; rfl, ((h1.trans h2).trans h3).trans h4,
    good_asm (good_asm g2 ..) .., fun f hH hf => ?_⟩
  have hw : reg + 1 < 256 := wide_small hH hf ((((grow_const _ x).trans h2).trans h3).trans h4)
  rw [mod_id hw] at h4 e hH
  obtain ⟨hn, hv⟩ := const_small hH hf ((h2.trans h3).trans h4)
  have a2 := at_asm (st := st1) (op := .loadk) (x := reg) hH (by omega) h4 (by omega) hn
  have a3 := at_asm (st := st1.asm .loadk reg ((st.wide (reg + 1)).const x).2) hH (by simp; omega) (Grow.refl _) (by omega : reg < 2048) (by omega)
  refine ⟨hw, fun regs r hr0 hr1 => ?_⟩
  have s1 : ∀ loc m, step W me f ⟨st.len, regs, loc, m⟩ = St.res ⟨st.len, regs, loc, m⟩ (reg + 1) (.ok (r, m)) := by
    intro loc m
    by_cases hc : count = 0
    · rw [if_pos hc] at e; subst e
      rw [hr0 hc]
      exact step_self (at_asm (st := ((st.wide (reg + 1)).const x).1) (y := 0) hH (Nat.le_refl _) (h3.trans h4) (by omega) (by omega))
    · rw [if_neg hc] at e; subst e
      rw [← hr1 hc]
      exact step_move (at_asm (st := ((st.wide (reg + 1)).const x).1) hH (Nat.le_refl _) (h3.trans h4) (by omega) (by omega))
  rw [l2] at a2
  simp only [len_asm, l2] at a3 ⊢
  refine Does.silent s1 (Does.silent (fun loc m => step_loadk a2 hv) ?_)
  refine (Does.prim (a := reg) (x := p r (W.const x)) fun loc m => ?_).conseq fun v r' hr' => ?_
  · rw [hp a3]; rw [upd_same, upd_other (by omega), upd_same]
  · rw [hr']
    refine ⟨upd_same, ?_, fun i hi => ?_⟩
    · rw [upd_other (by omega), upd_other (by omega), upd_same]
    · rw [upd_other (by omega), upd_other (by omega), upd_other (by omega)]

/-- The missing argument: nil. -/
theorem emits_nil {K} {r0 : Nat} : EmitsA (fun st => some ((st.wide (r0 + 1)).asm .loadpn ((r0 + 1) % 256 : Nat) 0, (r0 + 1) % 256)) K K
    (fun f n0 n1 b => b = r0 + 1 ∧ r0 + 1 < 256 ∧ n1 = n0 + 1 ∧
      ∀ reg loc m, step W me f ⟨n0, reg, loc, m⟩ = St.res ⟨n0, reg, loc, m⟩ (r0 + 1) (.ok (W.const .nil, m))) := by
  intro st hG
  refine ⟨_, _, rfl, Nat.mod_lt _ (by omega), (grow_wide ..).trans (grow_asm ..), good_asm (good_wide hG _) .., fun f hH hf => ?_⟩
  have hw : r0 + 1 < 256 := wide_small hH hf (grow_asm ..)
  rw [mod_id hw] at hH ⊢
  refine ⟨rfl, hw, rfl, fun reg loc m => ?_⟩
  have a := at_asm (st := st.wide (r0 + 1)) (y := 0) hH (Nat.le_refl _) (Grow.refl _) (by omega) (by omega)
  exact step_loadpn (w := 0) a.1 a.2

theorem argAsmb_list {rec : Rec} {ts : List Tree} {reg : Nat} {st : CSt} :
    argAsmb rec (leaf .list (tupOf ts)) reg true st = argItems rec reg ts.length ts reg st := by
  cases ts with
  | nil => rfl
  | cons t ts => rfl

theorem each_snoc {g : Nat → Tree → CSt → Option CSt} {v : Tree} : ∀ {l : List Tree} {i : Nat} {st : CSt},
    each g i (l ++ [v]) st = (each g i l st).bind (g (i + l.length) v)
  | [], i, st => by
    simp only [List.nil_append, each, List.length_nil, Nat.add_zero, Option.bind_some]
    cases g i v st <;> rfl
  | x :: l, i, st => by
    simp only [List.cons_append, each]
    cases g i x st with
    | none => rfl
    | some st' =>
      dsimp only
      rw [each_snoc, List.length_cons]
      congr 2; omega

end Potion.Send
