import Verif.Proof.Stmt1
import Mathlib.Tactic.Tauto
/-! Proof of C77_statements: what statements emit. The jumps of `break` and `continue` are filled in at the end of the loop around them. -/
namespace Potion.Send
open Potion Potion.Peg Potion.CompileAll Potion.Vm

variable {dl : List (BitVec 8) → Bool}

/-- From `a` to `b` code was appended, with `break`s at `B` and `continue`s at `C`. -/
structure GrowJ (a b : CSt) (B C : List Nat) : Prop where
  grow : Grow a { b with loop := a.loop }
  loop : b.loop = a.loop.map fun p => (p.1 ++ B, p.2 ++ C)
  pos : ∀ k ∈ B ++ C, a.len ≤ k ∧ k < b.len
  code : ∀ k ∈ B ++ C, b.code k = ⟨.jmp, 0, 0⟩
  disj : ∀ k ∈ B, k ∉ C

theorem Grow.toJ {a b : CSt} (h : Grow a b) : GrowJ a b [] [] := by
  refine ⟨⟨h.len, h.code, h.vals, h.locs, h.over, h.ups, h.out, rfl⟩, ?_, fun k hk => by simp at hk, fun k hk => by simp at hk, fun k hk => by simp at hk⟩
  rw [h.loop]; simp

theorem GrowJ.trans {a b c : CSt} {B C B' C' : List Nat} (h : GrowJ a b B C) (h' : GrowJ b c B' C') : GrowJ a c (B ++ B') (C ++ C') := by
  have hl := h.grow.len
  have hl' := h'.grow.len
  dsimp only at hl hl'
  have g : Grow { b with loop := a.loop } { c with loop := a.loop } :=
    ⟨h'.grow.len, h'.grow.code, h'.grow.vals, h'.grow.locs, h'.grow.over, h'.grow.ups, h'.grow.out, rfl⟩
  refine ⟨h.grow.trans g, ?_, fun k hk => ?_, fun k hk => ?_, fun k hk hk' => ?_⟩
  · rw [h'.loop, h.loop]; simp [Function.comp_def]
  · have hk' : k ∈ B ++ C ∨ k ∈ B' ++ C' := by
      simp only [List.mem_append] at hk ⊢; tauto
    rcases hk' with hk | hk
    · have := h.pos k hk; omega
    · have := h'.pos k hk; omega
  · have hk' : k ∈ B ++ C ∨ k ∈ B' ++ C' := by
      simp only [List.mem_append] at hk ⊢; tauto
    rcases hk' with hk | hk
    · rw [show c.code k = b.code k from h'.grow.code k (h.pos k hk).2]; exact h.code k hk
    · exact h'.code k hk
  · have key : ∀ {k}, k ∈ B ++ C → k ∈ B' ++ C' → False := fun h1 h2 => by
      have := h.pos _ h1; have := h'.pos _ h2; omega
    rcases List.mem_append.1 hk with h1 | h1 <;> rcases List.mem_append.1 hk' with h2 | h2
    · exact h.disj k h1 h2
    · exact key (List.mem_append_left _ h1) (List.mem_append_right _ h2)
    · exact key (List.mem_append_right _ h2) (List.mem_append_left _ h1)
    · exact h'.disj k h1 h2

/-- `f` contains the code between `a` and `b`, with the jumps filled in. -/
structure HoldsJ (f : Fn) (a b : CSt) (B C : List Nat) (tb tc : Nat) : Prop where
  len : b.len ≤ f.len
  code : ∀ k, a.len ≤ k → k < b.len → k ∉ B ++ C → f.code k = b.code k
  vals : b.values <+: f.values
  locs : b.locals <+: f.locals
  over : b.over = true → f.over = true
  brks : ∀ k ∈ B, Jmp f k tb
  conts : ∀ k ∈ C, Jmp f k tc

theorem HoldsJ.plain {f : Fn} {a b : CSt} {tb tc} (h : HoldsJ f a b [] [] tb tc) : Holds f a b :=
  ⟨h.len, fun k h1 h2 => h.code k h1 h2 (by simp), h.vals, h.locs, h.over⟩
theorem HoldsJ.left {f : Fn} {a b c : CSt} {B C B' C' : List Nat} {tb tc} (h : HoldsJ f a c (B ++ B') (C ++ C') tb tc) (g : GrowJ b c B' C') : HoldsJ f a b B C tb tc := by
  have hl := g.grow.len
  dsimp only at hl
  refine ⟨Nat.le_trans hl h.len, fun k h1 h2 h3 => ?_, g.grow.vals.trans h.vals, g.grow.locs.trans h.locs, fun x => h.over (g.grow.over x),
    fun k hk => h.brks k (by simp [hk]), fun k hk => h.conts k (by simp [hk])⟩
  rw [h.code k h1 (by omega) ?_, show c.code k = b.code k from g.grow.code k h2]
  intro hk
  have : k ∈ B ++ C ∨ k ∈ B' ++ C' := by simp only [List.mem_append] at hk ⊢; tauto
  rcases this with hk | hk
  · exact h3 hk
  · have := g.pos k hk; omega
theorem HoldsJ.right {f : Fn} {a b c : CSt} {B C B' C' : List Nat} {tb tc} (h : HoldsJ f a c (B ++ B') (C ++ C') tb tc) (g : GrowJ a b B C) : HoldsJ f b c B' C' tb tc := by
  have hl := g.grow.len
  dsimp only at hl
  refine ⟨h.len, fun k h1 h2 h3 => h.code k (by omega) h2 ?_, h.vals, h.locs, h.over, fun k hk => h.brks k (by simp [hk]), fun k hk => h.conts k (by simp [hk])⟩
  intro hk
  have : k ∈ B ++ C ∨ k ∈ B' ++ C' := by simp only [List.mem_append] at hk ⊢; tauto
  rcases this with hk | hk
  · have := g.pos k hk; omega
  · exact h3 hk

/-- Room for `nb` more `break`s and `nc` more `continue`s. -/
def Room (l : Option (List Nat × List Nat)) (nb nc : Nat) : Prop :=
  match l with
  | none => nb = 0 ∧ nc = 0
  | some (bs, cs) => bs.length + nb ≤ 1024 ∧ cs.length + nc ≤ 1024

theorem Room.left {l nb nc nb' nc'} (h : Room l (nb + nb') (nc + nc')) : Room l nb nc := by
  unfold Room at *
  split <;> simp_all <;> omega
theorem Room.right {l nb nc nb' nc'} (h : Room l (nb + nb') (nc + nc')) {B C : List Nat} (hB : B.length = nb) (hC : C.length = nc) :
    Room (l.map fun p => (p.1 ++ B, p.2 ++ C)) nb' nc' := by
  unfold Room at *
  cases l with
  | none => simp_all
  | some p => simp_all; omega

/-- `G` always succeeds among the variables `K` if there is room for its jumps, and the code it appends satisfies `C`. -/
def EmitsJ (G : CSt → Option CSt) (K K' : List Ident) (nb nc : Nat) (C : Fn → Nat → Nat → Nat → Nat → Prop) : Prop :=
  ∀ st, Good st K → Room st.loop nb nc → ∃ st' B C', G st = some st' ∧ GrowJ st st' B C' ∧ B.length = nb ∧ C'.length = nc ∧ Good st' K' ∧
    ∀ f tb tc, HoldsJ f st st' B C' tb tc → f.fits → C f tb tc st.len st'.len

theorem Emits.toJ {G K K' C} (h : Emits G K K' C) : EmitsJ G K K' 0 0 (fun f _ _ n0 n1 => C f n0 n1) := by
  intro st hG _
  obtain ⟨st', h1, h2, h3, h4⟩ := h st hG
  exact ⟨st', [], [], h1, h2.toJ, rfl, rfl, h3, fun f _ _ hH hf => h4 f hH.plain hf⟩
theorem EmitsJ.mono {G K K' nb nc C C'} (h : EmitsJ G K K' nb nc C) (hC : ∀ f tb tc n0 n1, f.fits → C f tb tc n0 n1 → C' f tb tc n0 n1) : EmitsJ G K K' nb nc C' := by
  intro st hG hR
  obtain ⟨st', B, D, h1, h2, h3, h4, h5, h6⟩ := h st hG hR
  exact ⟨st', B, D, h1, h2, h3, h4, h5, fun f tb tc hH hf => hC _ _ _ _ _ hf (h6 f tb tc hH hf)⟩
theorem EmitsJ.congr {G G' K K' nb nc C} (h : EmitsJ G K K' nb nc C) (hG : ∀ st, Good st K → G' st = G st) : EmitsJ G' K K' nb nc C := by
  intro st hs hR
  obtain ⟨st', B, D, h1, h2⟩ := h st hs hR
  exact ⟨st', B, D, by rw [hG st hs]; exact h1, h2⟩
theorem EmitsJ.count {G K K' nb nc nb' nc' C} (h : EmitsJ G K K' nb nc C) (hb : nb = nb') (hc : nc = nc') : EmitsJ G K K' nb' nc' C := by
  subst hb hc; exact h

theorem EmitsJ.seq {G G' K K1 K2 nb nc nb' nc' C C'} (h : EmitsJ G K K1 nb nc C) (h' : EmitsJ G' K1 K2 nb' nc' C') :
    EmitsJ (fun st => (G st).bind G') K K2 (nb + nb') (nc + nc') (fun f tb tc n0 n2 => ∃ n1, C f tb tc n0 n1 ∧ C' f tb tc n1 n2) := by
  intro st hG hR
  obtain ⟨s1, B1, D1, a1, a2, a3, a4, a5, a6⟩ := h st hG hR.left
  obtain ⟨s2, B2, D2, b1, b2, b3, b4, b5, b6⟩ := h' s1 a5 (by rw [a2.loop]; exact hR.right a3 a4)
  refine ⟨s2, _, _, by simp [a1, b1], a2.trans b2, by simp [a3, b3], by simp [a4, b4], b5, fun f tb tc hH hf => ⟨s1.len, a6 f tb tc (hH.left b2) hf,
    b6 f tb tc (hH.right a2) hf⟩⟩

theorem EmitsJ.pre {G K K' nb nc C r} (h : EmitsJ G K K' nb nc C) : EmitsJ (fun st => G (st.regs r)) K K' nb nc C := by
  refine (((EmitsJ.seq (emits_regs (n := r)).toJ h).congr fun st _ => rfl).count (by omega) (by omega)).mono ?_
  rintro f tb tc n0 n1 _ ⟨_, rfl, h⟩; exact h
theorem EmitsJ.post {G K K' nb nc C r} (h : EmitsJ G K K' nb nc C) : EmitsJ (fun st => (G st).bind fun st => some (st.regs r)) K K' nb nc C := by
  refine ((EmitsJ.seq h (emits_regs (n := r)).toJ).congr fun st _ => rfl).mono ?_
  rintro f tb tc n0 n1 _ ⟨_, h, rfl⟩; exact h

/-- A conditional jump over the code of `B`. -/
theorem emitsJ_jump {A B : CSt → Option CSt} {K K1 K2 nb nc C1 C2 op} {reg : Nat} (hr : reg < 2048) (hA : Emits A K K1 C1) (hB : EmitsJ B K1 K2 nb nc C2) :
    EmitsJ (fun st => (A st).bind fun h => (B (h.asm op reg 0)).bind fun s => some (s.patchB h.len ((s.len : Int) - h.len - 1))) K K2 nb nc
      (fun f tb tc n0 n1 => ∃ j, j + 1 ≤ n1 ∧ C1 f n0 j ∧ At f j op reg (n1 - j - 1) ∧ C2 f tb tc (j + 1) n1) := by
  intro st hG hR
  obtain ⟨h, a1, a2, a3, a4⟩ := hA st hG
  obtain ⟨s, J, D, b1, b2, b3, b3', b3'', b4⟩ := hB (h.asm op reg 0) (good_asm a3 ..) (by show Room h.loop nb nc; rw [a2.loop]; exact hR)
  have hl := b2.grow.len
  simp only [len_asm] at hl
  have a2l := a2.len
  have hp : ∀ k ∈ J ++ D, h.len + 1 ≤ k ∧ k < s.len := fun k hk => by have := b2.pos k hk; simpa using this
  have hcode : ∀ k < h.len + 1, s.code k = (h.asm op reg 0).code k := fun k hk => b2.grow.code k (by simpa using hk)
  refine ⟨s.patchB h.len ((s.len : Int) - h.len - 1), J, D, by simp [a1, b1], ?_, b3, b3', ?_, ?_⟩
  · refine ⟨⟨by show st.len ≤ s.len; omega, fun k hk => ?_, a2.vals.trans b2.grow.vals, a2.locs.trans b2.grow.locs, fun x => b2.grow.over (a2.over x),
      by show s.upvals = _; exact b2.grow.ups.trans a2.ups, by show s.outer = _; exact b2.grow.out.trans a2.out, rfl⟩, ?_, fun k hk => ?_, fun k hk => ?_, b2.disj⟩
    · simp only [CSt.patchB]
      rw [if_neg (by omega), hcode k (by omega)]
      simp only [CSt.asm]
      rw [if_neg (by omega), a2.code k hk]
    · show s.loop = _
      rw [b2.loop]; show Option.map _ h.loop = _; rw [a2.loop]
    · have := hp k hk; exact ⟨by omega, this.2⟩
    · have := hp k hk
      simp only [CSt.patchB]
      rw [if_neg (by omega)]; exact b2.code k hk
  · exact b3''
  · intro f tb tc hH hf
    have hfl := hH.len
    have e1 : (s.patchB h.len ((s.len : Int) - h.len - 1)).len = s.len := rfl
    rw [e1] at hfl ⊢
    have hc : ∀ k, st.len ≤ k → k < s.len → k ≠ h.len → k ∉ J ++ D → f.code k = s.code k := fun k h1 h2 h3 h4 => by
      rw [hH.code k h1 h2 h4]; simp only [CSt.patchB]; rw [if_neg h3]
    have hn : ∀ k < h.len + 1, k ∉ J ++ D := fun k hk hm => by have := hp k hm; omega
    refine ⟨h.len, hl, a4 f ⟨by omega, fun k h1 h2 => ?_, b2.grow.vals.trans hH.vals, b2.grow.locs.trans hH.locs, fun x => hH.over (b2.grow.over x)⟩ hf, ⟨by omega, ?_⟩,
      b4 f tb tc ⟨hfl, fun k h1 h2 h3 => ?_, hH.vals, hH.locs, hH.over, hH.brks, hH.conts⟩ hf⟩
    · rw [hc k h1 (by omega) (by omega) (hn k (by omega)), hcode k (by omega)]
      simp only [CSt.asm]; rw [if_neg (by omega)]
    · rw [hH.code h.len a2l (by rw [e1]; omega) (hn _ (by omega))]
      simp only [CSt.patchB, if_pos]
      rw [hcode h.len (by omega)]
      simp only [CSt.asm, if_pos]
      have := hf.2.1
      rw [trunc_id (i := (reg : Int)) (by omega) (by omega), trunc_id (by omega) (by omega)]
      congr 1; omega
    · simp only [len_asm] at h1
      exact hc k (by omega) h2 (by omega) h3

/-! ### Loops -/

theorem patchAll_code {t : Int} {l : List Nat} {st : CSt} {k : Nat} :
    (st.patchAll t l).code k = if k ∈ l then { st.code k with a := trunc12 (t - k - 1) } else st.code k := by
  induction l generalizing st with
  | nil => simp [CSt.patchAll]
  | cons i l ih =>
    rw [CSt.patchAll, ih]
    simp only [CSt.patchA, List.mem_cons]
    by_cases h1 : k = i
    · subst h1
      by_cases h2 : k ∈ l <;> simp [h2]
    · by_cases h2 : k ∈ l <;> simp [h1, h2]
theorem patchAll_rest {t : Int} {l : List Nat} {st : CSt} : ∃ c, st.patchAll t l = { st with code := c } := by
  induction l generalizing st with
  | nil => exact ⟨_, rfl⟩
  | cons i l ih =>
    rw [CSt.patchAll]
    obtain ⟨c, hc⟩ := ih (st := st.patchA i (t - i - 1))
    exact ⟨c, hc⟩

/-- compile.c:726-736: the end of a loop that starts at `j2` and is left at `e`. -/
def closeLoop (j2 : Nat) (e : Option Nat) (outer : Option (List Nat × List Nat)) (s : CSt) : CSt :=
  let s := s.asm .jmp ((j2 : Int) - s.len - 1) 0
  let s := s.exit e
  let jumps := s.loop.getD ([], [])
  let s := s.patchAll s.len jumps.1
  let s := s.patchAll j2 jumps.2
  { s with loop := outer }

theorem loopBody_eq {rec : Rec} {blk : Tree} {reg j2 : Nat} {e : Option Nat} {st : CSt} (h : CompileAll.isNil blk = false) : loopBody rec blk reg j2 e st =
    (rec blk 0 reg { st with loop := some ([], []) }).bind fun s => some (closeLoop j2 e st.loop s) := by
  unfold loopBody
  rw [h]
  simp only [Bool.false_eq_true, if_false, Option.bind_eq_bind]
  rfl

theorem exit_rest {e : Option Nat} {s : CSt} : ∃ c, s.exit e = { s with code := c } := by
  cases e with
  | none => exact ⟨_, rfl⟩
  | some j => exact ⟨_, rfl⟩
theorem exit_code {e : Option Nat} {s : CSt} {k : Nat} : (s.exit e).code k = if e = some k then { s.code k with b := trunc12 ((s.len : Int) - k - 1) } else s.code k := by
  cases e with
  | none => simp [CSt.exit]
  | some j =>
    simp only [CSt.exit, CSt.patchB, Option.some.injEq]
    by_cases h : k = j
    · subst h; simp
    · rw [if_neg h, if_neg (Ne.symm h)]

theorem closeLoop_spec {j2 : Nat} {e : Option Nat} {outer : Option (List Nat × List Nat)} {s : CSt} {B C : List Nat} (hl : s.loop = some (B, C)) (hd : ∀ k ∈ B, k ∉ C) :
    (∃ c, closeLoop j2 e outer s = { s with code := c, len := s.len + 1, loop := outer }) ∧
    ∀ k, (closeLoop j2 e outer s).code k =
      let i : CompileAll.Ins := if k = s.len then ⟨.jmp, trunc12 ((j2 : Int) - s.len - 1), trunc12 0⟩ else s.code k
      let i : CompileAll.Ins := if e = some k then { i with b := trunc12 (((s.len + 1 : Nat) : Int) - k - 1) } else i
      if k ∈ B then { i with a := trunc12 (((s.len + 1 : Nat) : Int) - k - 1) }
      else if k ∈ C then { i with a := trunc12 ((j2 : Int) - k - 1) } else i := by
  unfold closeLoop
  obtain ⟨c, hc⟩ := exit_rest (e := e) (s := s.asm .jmp ((j2 : Int) - s.len - 1) 0)
  have e1 : ((s.asm .jmp ((j2 : Int) - s.len - 1) 0).exit e).loop = some (B, C) := by rw [hc]; exact hl
  have e2 : ((s.asm .jmp ((j2 : Int) - s.len - 1) 0).exit e).len = s.len + 1 := by rw [hc]; rfl
  simp only [e1, e2, Option.getD_some]
  constructor
  · obtain ⟨c1, h1⟩ := patchAll_rest (t := ((s.len + 1 : Nat) : Int)) (l := B) (st := (s.asm .jmp ((j2 : Int) - s.len - 1) 0).exit e)
    obtain ⟨c2, h2⟩ := patchAll_rest (t := (j2 : Int)) (l := C) (st := ((s.asm .jmp ((j2 : Int) - s.len - 1) 0).exit e).patchAll ((s.len + 1 : Nat) : Int) B)
    rw [h2, h1, hc]
    exact ⟨_, rfl⟩
  · intro k
    rw [patchAll_code, patchAll_code, exit_code]
    have e3 : (s.asm .jmp ((j2 : Int) - s.len - 1) 0).len = s.len + 1 := rfl
    simp only [e3, CSt.asm]
    by_cases h1 : k ∈ B
    · simp only [h1, hd k h1, if_true, if_false]
    · simp only [h1, if_false]

/-- What a loop emits: the code before its body, from `st` to `h`, where the body begins; its exit, if any, is the last instruction of it. -/
theorem emits_close {B : CSt → Option CSt} {K1 K2 : List Ident} {nb nc : Nat} {C2} {st h : CSt} {e : Option Nat} (hG : Good h K1) (hg : Grow st h)
    (hB : EmitsJ B K1 K2 nb nc C2) (hnb : nb ≤ 1024) (hnc : nc ≤ 1024) (he : ∀ j, e = some j → st.len ≤ j ∧ j + 1 = h.len) :
    ∃ s, ((B { h with loop := some ([], []) }).bind fun s => some (closeLoop st.len e h.loop s)) = some s ∧ Grow st s ∧ Good s K2 ∧ h.len + 1 ≤ s.len ∧
      ∀ f, Holds f st s → f.fits → (∀ k, st.len ≤ k → k < h.len → e ≠ some k → f.code k = h.code k) ∧
        (∀ j, e = some j → f.code j = ⟨(h.code j).op, (h.code j).a, trunc12 ((s.len : Int) - j - 1)⟩) ∧
        h.values <+: f.values ∧ h.locals <+: f.locals ∧ (h.over = true → f.over = true) ∧
        ∃ k, s.len = k + 1 ∧ Jmp f k st.len ∧ C2 f s.len st.len h.len k := by
  obtain ⟨s, J, D, b1, b2, b3, b4, b5, b6⟩ := hB { h with loop := some ([], []) } ⟨hG.1, hG.2.1, hG.2.2⟩ (by unfold Room; simp; omega)
  have hl : h.len ≤ s.len := b2.grow.len
  have hgl := hg.len
  have hloop : s.loop = some (J, D) := by rw [b2.loop]; simp
  obtain ⟨⟨c, hc⟩, hcode⟩ := closeLoop_spec (j2 := st.len) (e := e) (outer := h.loop) hloop b2.disj
  have hs : ∀ k < h.len, s.code k = h.code k := fun k hk => b2.grow.code k hk
  have hp : ∀ k ∈ J ++ D, h.len ≤ k ∧ k < s.len := fun k hk => b2.pos k hk
  have hJ : ∀ k, k < h.len → k ∉ J ∧ k ∉ D := fun k hk => ⟨fun hm => by have := hp k (by simp [hm]); omega, fun hm => by have := hp k (by simp [hm]); omega⟩
  have elen : (closeLoop st.len e h.loop s).len = s.len + 1 := by rw [hc]
  refine ⟨closeLoop st.len e h.loop s, by rw [b1]; rfl, ?_, ?_, by omega, ?_⟩
  · refine ⟨by omega, fun k hk => ?_, by rw [hc]; exact hg.vals.trans b2.grow.vals, by rw [hc]; exact hg.locs.trans b2.grow.locs,
      fun x => by rw [hc]; exact b2.grow.over (hg.over x), by rw [hc]; exact b2.grow.ups.trans hg.ups, by rw [hc]; exact b2.grow.out.trans hg.out, by rw [hc]; exact hg.loop⟩
    rw [hcode]
    have he' : e ≠ some k := fun h => by have := he k h; omega
    simp only [hJ k (by omega), if_false, he', show k ≠ s.len by omega]
    rw [hs k (by omega), hg.code k hk]
  · rw [hc]; exact ⟨b5.1, b5.2.1, b5.2.2⟩
  · intro f hH hf
    have hfl := hH.len
    rw [elen] at hfl
    have hfit := hf.2.1
    have hcd : ∀ k, st.len ≤ k → k < s.len + 1 → f.code k = (closeLoop st.len e h.loop s).code k := fun k h1 h2 => hH.code k h1 (by omega)
    have hv := hH.vals; have hlo := hH.locs; have hov := hH.over
    rw [hc] at hv hlo hov
    dsimp only at hv hlo hov
    refine ⟨fun k h1 h2 h3 => ?_, fun j hj => ?_, b2.grow.vals.trans hv, b2.grow.locs.trans hlo, fun x => hov (b2.grow.over x), s.len, elen, ⟨by omega, ?_⟩, ?_⟩
    · rw [hcd k h1 (by omega), hcode]
      simp only [hJ k h2, if_false, h3, show k ≠ s.len by omega]
      exact hs k h2
    · obtain ⟨h1, h2⟩ := he j hj
      rw [hcd j h1 (by omega), hcode, elen]
      simp only [hJ j (by omega), if_false, hj, if_true, show j ≠ s.len by omega]
      rw [hs j (by omega)]
    · rw [hcd s.len (by omega) (by omega), hcode]
      have he' : e ≠ some s.len := fun h => by have := he _ h; omega
      have h1 : s.len ∉ J := fun hm => by have := hp s.len (by simp [hm]); omega
      have h2 : s.len ∉ D := fun hm => by have := hp s.len (by simp [hm]); omega
      simp only [h1, h2, if_false, he', if_true]
      rw [trunc_id (by omega) (by omega), trunc_id (by omega) (by omega)]
    · rw [elen]
      have jump : ∀ k ∈ J ++ D, f.code k = ⟨.jmp, if k ∈ J then ((s.len + 1 : Nat) : Int) - k - 1 else (st.len : Int) - k - 1, 0⟩ := by
        intro k hk
        have hpk := hp k hk
        have he' : e ≠ some k := fun h => by have := he _ h; omega
        rw [hcd k (by omega) (by omega), hcode]
        simp only [he', if_false, show k ≠ s.len by omega]
        rw [b2.code k hk]
        by_cases h1 : k ∈ J
        · simp only [h1, if_true]
          rw [trunc_id (by omega) (by omega)]
        · have h2 : k ∈ D := (List.mem_append.1 hk).resolve_left h1
          simp only [h1, h2, if_true, if_false]
          rw [trunc_id (by omega) (by omega)]
      refine b6 f _ _ ⟨by omega, fun k h1 h2 h3 => ?_, hv, hlo, hov, fun k hk => ⟨?_, ?_⟩, fun k hk => ⟨?_, ?_⟩⟩ hf
      · have h1 : h.len ≤ k := h1
        have he' : e ≠ some k := fun h => by have := he _ h; omega
        rw [hcd k (by omega) (by omega), hcode]
        have h3 := List.mem_append.not.1 h3
        simp only [not_or] at h3
        simp only [h3, if_false, he', show k ≠ s.len by omega]
      · have := hp k (by simp [hk]); omega
      · rw [jump k (by simp [hk]), if_pos hk]
      · have := hp k (by simp [hk]); omega
      · rw [jump k (by simp [hk]), if_neg (fun h => b2.disj k h hk)]

/-- A loop with a condition `A`. -/
theorem emits_while {A B : CSt → Option CSt} {K K1 K2 nb nc C1 C2} {reg : Nat} (hr : reg < 2048) (hA : Emits A K K1 C1) (hB : EmitsJ B K1 K2 nb nc C2)
    (hnb : nb ≤ 1024) (hnc : nc ≤ 1024) :
    Emits (fun st => (A st).bind fun h => (B { h.asm .notjmp reg 0 with loop := some ([], []) }).bind fun s => some (closeLoop st.len (some h.len) h.loop s)) K K2
      (fun f n0 n1 => ∃ j k, j + 1 ≤ n1 ∧ C1 f n0 j ∧ At f j .notjmp reg (n1 - j - 1) ∧ Jmp f k n0 ∧ C2 f n1 n0 (j + 1) k) := by
  intro st hG
  obtain ⟨h, a1, a2, a3, a4⟩ := hA st hG
  have a2l := a2.len
  obtain ⟨s, b1, b2, b3, b4, b5⟩ := emits_close (st := st) (e := some h.len) (good_asm a3 .notjmp reg 0) (a2.trans (grow_asm ..)) hB hnb hnc
    (fun j hj => by cases hj; exact ⟨a2l, rfl⟩)
  rw [len_asm] at b4
  refine ⟨s, by show (A st).bind _ = _; rw [a1]; exact b1, b2, b3, fun f hH hf => ?_⟩
  obtain ⟨c1, c2, c3, c4, c5, k, c6, c7, c8⟩ := b5 f hH hf
  have hfit := hf.2.1
  have hfl := hH.len
  refine ⟨h.len, k, by omega, a4 f ⟨by omega, fun i h1 h2 => ?_, c3, c4, c5⟩ hf, ⟨by omega, ?_⟩, c7, c8⟩
  · rw [c1 i h1 (by simp; omega) (by simp; omega)]
    simp only [CSt.asm]; rw [if_neg (by omega)]
  · rw [c2 _ rfl]
    simp only [CSt.asm, if_true]
    rw [trunc_id (i := (reg : Int)) (by omega) (by omega), trunc_id (by omega) (by omega)]
    congr 1; omega

/-- A loop without condition. -/
theorem emits_loop {B : CSt → Option CSt} {K K2 nb nc C2} (hB : EmitsJ B K K2 nb nc C2) (hnb : nb ≤ 1024) (hnc : nc ≤ 1024) :
    Emits (fun st => (B { st with loop := some ([], []) }).bind fun s => some (closeLoop st.len none st.loop s)) K K2
      (fun f n0 n1 => ∃ k, Jmp f k n0 ∧ C2 f n1 n0 n0 k) := by
  intro st hG
  obtain ⟨s, b1, b2, b3, b4, b5⟩ := emits_close (st := st) (e := none) hG (.refl _) hB hnb hnc (fun j hj => by cases hj)
  refine ⟨s, b1, b2, b3, fun f hH hf => ?_⟩
  obtain ⟨_, _, _, _, _, k, _, c7, c8⟩ := b5 f hH hf
  exact ⟨k, c7, c8⟩

/-- `break` and `continue`. -/
theorem emits_jumpMsg {K} (b : Bool) : EmitsJ (jumpMsg b) K K (if b then 1 else 0) (if b then 0 else 1)
    (fun f tb tc n0 _ => Jmp f n0 (if b then tb else tc)) := by
  intro st hG hR
  unfold Room at hR
  cases hl : st.loop with
  | none => rw [hl] at hR; cases b <;> simp at hR
  | some p =>
    obtain ⟨bs, cs⟩ := p
    rw [hl] at hR
    simp only [] at hR
    have hlt : (if b then bs else cs).length < Compile.MAX_JUMPS := by cases b <;> simp [Compile.MAX_JUMPS] at * <;> omega
    refine ⟨{ st.asm .jmp 0 0 with loop := some (if b then (bs ++ [st.len], cs) else (bs, cs ++ [st.len])) }, if b then [st.len] else [], if b then [] else [st.len],
      by unfold jumpMsg; rw [hl]; simp only []; rw [if_pos hlt], ⟨?_, ?_, ?_, ?_, ?_⟩, by cases b <;> rfl, by cases b <;> rfl, hG, fun f tb tc hH hf => ?_⟩
    · exact ⟨Nat.le_succ _, fun k hk => by simp only [CSt.asm]; rw [if_neg (by omega)], List.prefix_refl _, List.prefix_refl _, id, rfl, rfl, rfl⟩
    · rw [hl]; cases b <;> simp
    · intro k hk; have : k = st.len := by cases b <;> simpa using hk
      subst this; exact ⟨Nat.le_refl _, Nat.lt_succ_self _⟩
    · intro k hk; have : k = st.len := by cases b <;> simpa using hk
      subst this; simp only [CSt.asm, if_true]; rw [trunc_id (by omega) (by omega)]
    · intro k hk; cases b <;> simp at hk ⊢
    · cases b
      · exact hH.conts _ (by simp)
      · exact hH.brks _ (by simp)

end Potion.Send
