import Verif.Proof.Mt
import Verif.Proof.Word
import Verif.Spec.Word
import Mathlib.Data.List.Forall2
/-! # C31, C47: random numbers -/
namespace Potion.Props
open Potion Spec Mt

/-- The operation of the program for a use of random numbers; a seed `i` is passed as the Potion integer `i`. -/
def randOp : RandUse → Mt.Op
  | .seed i => .srand (pnNum i)
  | .int => .rand
  | .fraction => .numRand
  | .object => .alloc

/-- The value the program gets is the integer part of the specified answer. -/
def IntegerPart : Option (Nat × Nat) → Option PN → Prop
  | none, none => True
  | some (n, d), some w => Denotes w ((n / d : Nat) : Int)
  | _, _ => False

theorem seed_low (i : Int) : (BitVec.ofInt 64 (pnInt (pnNum i))).setWidth 32 = BitVec.ofInt 32 i := by
  rw [pnInt_pnNum]
  apply BitVec.eq_of_toNat_eq
  simp only [BitVec.toNat_setWidth, BitVec.toNat_ofInt, Int.bmod]
  omega

theorem denotes_small (n : Nat) (h : n < 2^32) : Denotes (pnNum (n : Int)) (n : Int) := by
  have e := toInt_of_isInt (isInt_pnNum (n:Int))
  unfold Denotes
  rw [e, pnInt_pnNum]
  simp only [Int.bmod]; omega

theorem C31_from (us : List RandUse) : ∀ (s : BitVec 32) (k : Nat) (g : Gen), Ready s k g →
    ∃ g' vs, Mt.run g (us.map randOp) = some (g', vs) ∧ List.Forall₂ IntegerPart (randAnswers s k us) vs := by
  induction us with
  | nil => intro s k g _; exact ⟨g, [], rfl, .nil⟩
  | cons u us ih =>
    intro s k g h
    cases u with
    | seed i =>
      have hr : Ready (BitVec.ofInt 32 i) 0 (Mt.srand g (pnNum i)) := by
        left; rw [← seed_low]; exact at_init g _
      obtain ⟨g', vs, e, f⟩ := ih _ _ _ hr
      refine ⟨g', none :: vs, ?_, .cons trivial f⟩
      simp only [List.map_cons, randOp, Mt.run, Mt.step, e]
    | int =>
      obtain ⟨g1, e1, h1⟩ := ready_draw s k g h
      obtain ⟨g', vs, e, f⟩ := ih _ _ _ h1
      refine ⟨g', some (pnNum (zx (mtOut s k)).toInt) :: vs, ?_, .cons ?_ f⟩
      · simp only [List.map_cons, randOp, Mt.run, Mt.step, Mt.rand, e1, Option.map, e]
      · simp only [IntegerPart, zx_toInt, Nat.div_one]
        exact denotes_small _ (BitVec.isLt _)
    | fraction =>
      obtain ⟨g1, e1, h1⟩ := ready_draw s k g h
      obtain ⟨g2, e2, h2⟩ := ready_draw s (k+1) g1 h1
      obtain ⟨g', vs, e, f⟩ := ih _ _ _ h2
      refine ⟨g', some (pnNum 0) :: vs, ?_, .cons ?_ f⟩
      · simp only [List.map_cons, randOp, Mt.run, Mt.step, Mt.numRand, Mt.randDouble, e1, e2, Option.map, BitVec.toNat_ushiftRight,
          zx_lt]
        rw [Nat.div_eq_of_lt (by
          have h1 := (mtOut s k).isLt
          have h2 := (mtOut s (k+1)).isLt
          simp only [Nat.shiftRight_eq_div_pow]; omega)]
        rw [show ((0:Nat):Int) = 0 from rfl]; simp only [e]
      · simp only [IntegerPart]
        rw [Nat.div_eq_of_lt (by
          have h1 := (mtOut s k).isLt
          have h2 := (mtOut s (k+1)).isLt
          omega)]
        exact denotes_small 0 (by decide)
    | object =>
      obtain ⟨g1, e1, h1⟩ := ready_draw s k g h
      obtain ⟨g', vs, e, f⟩ := ih _ _ _ h1
      refine ⟨g', none :: vs, ?_, .cons trivial f⟩
      simp only [List.map_cons, randOp, Mt.run, Mt.step, e1, Option.map, e]

/-- C31: in every program history – any interleaving of seeding, drawing and creating objects – no access leaves the
state array and every integer drawn is the next MT19937 output for the latest seed (5489 before the first one); a drawn
fraction comes back as its integer part. -/
theorem C31_sequence (us : List RandUse) :
    ∃ g vs, Mt.run Gen.start (us.map randOp) = some (g, vs) ∧ List.Forall₂ IntegerPart (randAnswers 5489#32 0 us) vs :=
  C31_from us _ _ _ (Or.inr ⟨rfl, rfl, rfl⟩)

/-- C31: after `srand i` the next `n` draws are the first `n` MT19937 outputs for that seed, whatever happened before, so
re-seeding reproduces the sequence; each is below 2^32. -/
theorem C31_reseed (us : List RandUse) (i : Int) (n : Nat) :
    ∃ (g : Gen) (vs : List (Option PN)) (ws : List PN), Mt.run Gen.start ((us ++ RandUse.seed i :: List.replicate n RandUse.int).map randOp)
        = some (g, vs ++ none :: ws.map some) ∧
      vs.length = us.length ∧ ws.length = n ∧
      ∀ (j : Nat) (w : PN), ws[j]? = some w → Denotes w (mtOut (BitVec.ofInt 32 i) j).toNat ∧ (mtOut (BitVec.ofInt 32 i) j).toNat < 2^32 := by
  have split : ∀ (a b : List Mt.Op) (g : Gen), Mt.run g (a ++ b) =
      (Mt.run g a).bind (fun (g, vs) => (Mt.run g b).map (fun (g, ws) => (g, vs ++ ws))) := by
    intro a
    induction a with
    | nil => intro b g; simp [Mt.run]
    | cons o a ih =>
      intro b g
      simp only [List.cons_append, Mt.run]
      cases hs : Mt.step g o with
      | none => rfl
      | some p =>
        obtain ⟨g1, v⟩ := p
        simp only [ih]
        cases hr : Mt.run g1 a with
        | none => rfl
        | some q =>
          obtain ⟨g2, vs⟩ := q
          simp only [Option.bind_some]
          cases Mt.run g2 b <;> rfl
  have ints : ∀ (n : Nat) (s : BitVec 32) (k : Nat) (g : Gen), Ready s k g →
      ∃ (g' : Gen) (ws : List PN), Mt.run g ((List.replicate n RandUse.int).map randOp) = some (g', ws.map some) ∧ ws.length = n ∧
        ∀ (j : Nat) (w : PN), ws[j]? = some w → Denotes w (mtOut s (k+j)).toNat := by
    intro n
    induction n with
    | zero => intro s k g _; exact ⟨g, [], rfl, rfl, by simp⟩
    | succ n ih =>
      intro s k g h
      obtain ⟨g1, e1, h1⟩ := ready_draw s k g h
      obtain ⟨g', ws, e, hl, hj⟩ := ih _ _ _ h1
      refine ⟨g', pnNum (zx (mtOut s k)).toInt :: ws, ?_, by simp [hl], ?_⟩
      · simp only [List.replicate_succ, List.map_cons, randOp, Mt.run, Mt.step, Mt.rand, e1, Option.map, e]
      · intro j w hw
        cases j with
        | zero =>
          simp only [List.getElem?_cons_zero, Option.some.injEq] at hw
          rw [← hw, zx_toInt]
          exact denotes_small _ (BitVec.isLt _)
        | succ j =>
          simp only [List.getElem?_cons_succ] at hw
          have := hj j w hw
          rwa [show k + 1 + j = k + (j+1) by omega] at this
  obtain ⟨g0, vs, e0, f0⟩ := C31_sequence us
  have hr : Ready (BitVec.ofInt 32 i) 0 (Mt.srand g0 (pnNum i)) := by
    left; rw [← seed_low]; exact at_init g0 _
  obtain ⟨g', ws, e, hl, hj⟩ := ints n _ _ _ hr
  have len : ∀ (us : List RandUse) (s : BitVec 32) (k : Nat), (randAnswers s k us).length = us.length := by
    intro us
    induction us with
    | nil => intro s k; rfl
    | cons u us ih => intro s k; cases u <;> simp [randAnswers, ih]
  refine ⟨g', vs, ws, ?_, ?_, hl, ?_⟩
  · rw [List.map_append, split, e0]
    simp only [Option.bind_some, List.map_cons, randOp, Mt.run, Mt.step, e, Option.map]
  · rw [← f0.length_eq, len]
  · intro j w hw
    have := hj j w hw
    rw [Nat.zero_add] at this
    exact ⟨this, BitVec.isLt _⟩

/-- Non-vacuity: a history with a seed, an object, a draw and a fraction. -/
example : ∃ g vs, Mt.run Gen.start ([RandUse.seed 7, .object, .int, .fraction].map randOp) = some (g, vs) ∧ vs.length = 4 := by
  obtain ⟨g, vs, e, f⟩ := C31_sequence [RandUse.seed 7, .object, .int, .fraction]
  exact ⟨g, vs, e, f.length_eq.symm⟩

/-- C47 fails for every state of the generator: `n rand`, documented as a random fraction, always answers the integer 0
(the double is truncated to an integer before it is returned). -/
theorem C47_refuted (us : List RandUse) :
    ∃ g vs, Mt.run Gen.start ((us ++ [RandUse.fraction]).map randOp) = some (g, vs) ∧
      ∃ w, vs.getLast? = some (some w) ∧ Denotes w 0 := by
  obtain ⟨g, vs, e, f⟩ := C31_sequence (us ++ [RandUse.fraction])
  refine ⟨g, vs, e, ?_⟩
  have app : ∀ (us : List RandUse) (s : BitVec 32) (k : Nat), ∃ l s' k', randAnswers s k (us ++ [RandUse.fraction]) =
      l ++ [some ((mtOut s' k').toNat / 32 * 67108864 + (mtOut s' (k'+1)).toNat / 64, 9007199254740992)] := by
    intro us
    induction us with
    | nil => intro s k; exact ⟨[], s, k, rfl⟩
    | cons u us ih =>
      intro s k
      cases u with
      | seed i => obtain ⟨l, s', k', e⟩ := ih (BitVec.ofInt 32 i) 0; exact ⟨_ :: l, s', k', by simp only [List.cons_append, randAnswers, e]; rfl⟩
      | int => obtain ⟨l, s', k', e⟩ := ih s (k+1); exact ⟨_ :: l, s', k', by simp only [List.cons_append, randAnswers, e]; rfl⟩
      | fraction => obtain ⟨l, s', k', e⟩ := ih s (k+2); exact ⟨_ :: l, s', k', by simp only [List.cons_append, randAnswers, e]; rfl⟩
      | object => obtain ⟨l, s', k', e⟩ := ih s (k+1); exact ⟨_ :: l, s', k', by simp only [List.cons_append, randAnswers, e]; rfl⟩
  obtain ⟨l, s', k', e'⟩ := app us 5489#32 0
  rw [e'] at f
  have key : ∀ (l : List (Option (Nat × Nat))) (x : Option (Nat × Nat)) (vs : List (Option PN)),
      List.Forall₂ IntegerPart (l ++ [x]) vs → ∃ v, vs.getLast? = some v ∧ IntegerPart x v := by
    intro l
    induction l with
    | nil =>
      intro x vs h
      cases h with
      | cons h1 h2 => cases h2; exact ⟨_, rfl, h1⟩
    | cons a l ih =>
      intro x vs h
      cases h with
      | cons h1 h2 =>
        obtain ⟨v, h3, h4⟩ := ih x _ h2
        refine ⟨v, ?_, h4⟩
        rw [List.getLast?_cons, h3]; rfl
  obtain ⟨v, h1, h2⟩ := key _ _ _ f
  cases v with
  | none => exact absurd h2 (by simp [IntegerPart])
  | some w =>
    refine ⟨w, h1, ?_⟩
    simp only [IntegerPart] at h2
    rw [Nat.div_eq_of_lt (by
      have h1 := (mtOut s' k').isLt
      have h2 := (mtOut s' (k'+1)).isLt
      omega)] at h2
    exact h2

end Potion.Props
