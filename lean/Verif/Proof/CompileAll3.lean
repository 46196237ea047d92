import Verif.Proof.CompileAll2
/-!
Functions, operands and arguments.
-/
namespace Potion.CompileAll
open Potion Potion.Vm Potion.Peg

/-- The tree is one the code of which stays inside, or there is slack. -/
def Nice (s : Nat) (t : Tree) : Prop := Fine t = true ∨ 1 ≤ s

theorem Nice.kids {s : Nat} {k a b c} (h : Nice s (.node k a b c)) :
    (fine k a b c = true ∨ 1 ≤ s) ∧ Nice s a ∧ Nice s b ∧ Nice s c := by
  rcases h with h | h
  · simp only [Fine, Bool.and_eq_true] at h
    exact ⟨.inl h.1.1.1, .inl h.1.1.2, .inl h.1.2, .inl h.2⟩
  · exact ⟨.inr h, .inr h, .inr h, .inr h⟩
theorem fineAll_mem : ∀ {l : List Tree} {t}, FineAll l = true → t ∈ l → Fine t = true
  | [], _, _, h => by simp at h
  | x :: l, t, h, ht => by
    simp only [FineAll, Bool.and_eq_true] at h
    rcases List.mem_cons.1 ht with rfl | ht
    · exact h.1
    · exact fineAll_mem h.2 ht
theorem Nice.mem {s : Nat} {l : List Tree} {t} (h : Nice s (.tup l)) (ht : t ∈ l) : Nice s t := by
  rcases h with h | h
  · exact .inl (fineAll_mem (by simpa [Fine] using h) ht)
  · exact .inr h
theorem fineAll_append : ∀ {l m : List Tree}, FineAll l = true → FineAll m = true → FineAll (l ++ m) = true
  | [], _, _, h => h
  | x :: l, m, h, h' => by
    simp only [FineAll, Bool.and_eq_true, List.cons_append] at h ⊢
    exact ⟨h.1, fineAll_append h.2 h'⟩

/-- The compiler of the children keeps the invariants. -/
def Good (s : Nat) (rec : Rec) : Prop :=
  ∀ t count reg st st', rec t count reg st = some st' → reg ≤ 255 → Nice s t → Step s 0 st st' ∧ reg < st'.stack

theorem step_each {s N : Nat} {g : Nat → Tree → CSt → Option CSt} : ∀ {l : List Tree} {i st st'},
    (∀ i v st st', v ∈ l → g i v st = some st' → Step s N st st') → each g i l st = some st' → Step s N st st'
  | [], i, st, st', _, h => by simp only [each, Option.some.injEq] at h; subst h; exact .refl ..
  | v :: l, i, st, st', hg, h => by
    simp only [each] at h
    split at h
    · contradiction
    · rename_i st1 h1
      exact (hg i v st st1 (by simp) h1).trans (step_each (fun i v st st' hv => hg i v st st' (by simp [hv])) h)

theorem wide_over {st : CSt} {n : Nat} (h : (st.wide n).over = false) : n < 256 ∧ st.over = false := by
  simp only [CSt.wide, Bool.or_eq_false_iff, decide_eq_false_iff_not] at h
  exact ⟨by omega, h.1⟩

/-! ### Functions -/

theorem sig_locals_fn {rec : Rec} {t sig : Tree} {outer} {g : Fn} {out} (h : compileFn rec t sig outer = some (g, out)) :
    ∃ sg locals st, rec t 0 0 (CSt.open locals outer) = some st ∧ g = st.close sg ∧ out = st.outer := by
  unfold compileFn at h
  split at h
  · obtain ⟨⟨sg, ls⟩, _, h⟩ := Option.bind_eq_some_iff.1 h
    obtain ⟨st, h1, h⟩ := Option.bind_eq_some_iff.1 h
    simp only [Option.pure_def, Option.some.injEq, Prod.mk.injEq] at h
    exact ⟨sg, ls, st, h1, h.1.symm, h.2.symm⟩
  · obtain ⟨⟨sg, ls⟩, _, h⟩ := Option.bind_eq_some_iff.1 h
    obtain ⟨st, h1, h⟩ := Option.bind_eq_some_iff.1 h
    simp only [Option.pure_def, Option.some.injEq, Prod.mk.injEq] at h
    exact ⟨sg, ls, st, h1, h.1.symm, h.2.symm⟩
  · contradiction

theorem inv_open (s M : Nat) (locals) (outer us) (h : Linked us outer) (ls) : Inv s M no (CSt.open locals ((ls, us) :: outer)) :=
  ⟨fun _ k hk => by simp [CSt.open] at hk, ⟨fun x hx => by simp [CSt.open] at hx, h⟩, fun p hp => by simp [CSt.open] at hp,
    fun g hg => by simp [CSt.open] at hg⟩
theorem inv_top (s M : Nat) (locals) : Inv s M no (CSt.open locals []) :=
  ⟨fun _ k hk => by simp [CSt.open] at hk, rfl, fun p hp => by simp [CSt.open] at hp, fun g hg => by simp [CSt.open] at hg⟩

theorem close_inside {s : Nat} {st : CSt} (i : Inv s 0 no st) (hs : 0 < st.stack) (sg : List Tree) (hf : (st.close sg).fits) :
    (st.close sg).inside s := by
  have i' : Inv s 0 no (st.asm .ret 0 0) := by
    refine inv_asm i fun f _ => ins_one rfl (asm_at ..) ?_
    rw [trunc_id (by omega) (by omega)]
    exact ⟨by omega, by simp only [CSt.frame, CSt.asm]; omega⟩
  have hfit : st.Fits := by
    obtain ⟨f1, f2, f3, f4, f5, f6⟩ := hf
    exact ⟨f1, by have : st.len + 1 ≤ 2048 := f2; omega, f3, f4, f5, f6⟩
  have hlen : (st.close sg).len = st.len + 1 := rfl
  refine ⟨fun k hk => ?_, by rw [hlen]; omega, ?_⟩
  · rw [hlen] at hk
    by_cases hk' : k < st.len
    · have := i.code hfit k hk' id
      refine Le.ins (F := st.frame s 0) (G := Fn.frame s (st.close sg)) ⟨?_, Nat.le_refl _, Nat.le_refl _, Nat.le_refl _, List.prefix_refl _, by
        simp only [Fn.frame, CSt.frame]; omega, ?_, fun j hj => ?_⟩ ?_ this
      · simp only [Fn.frame, CSt.frame, CSt.close, CSt.asm]; omega
      · simp only [Fn.frame, CSt.frame, hlen]; omega
      · exact congrArg Ins.op (asm_before st .ret 0 0 hj)
      · exact asm_before st .ret 0 0 hk'
    · have : k = st.len := by omega
      subst this
      refine ins_one (op := .ret) rfl (asm_at st .ret 0 0) ?_
      rw [trunc_id (by omega) (by omega)]
      exact ⟨by omega, by simp only [Fn.frame, CSt.close, CSt.asm]; omega⟩
  · rw [hlen, Nat.add_sub_cancel]
    exact congrArg Ins.op (asm_at st .ret 0 0)

theorem close_neat {s : Nat} {st : CSt} (i : Inv s 0 no st) (hs : 0 < st.stack) (sg : List Tree) : Neat s (st.close sg) := by
  intro h hp hn hf
  generalize hg : st.close sg = g at hp
  cases hp with
  | self => subst hg; exact close_inside i hs sg hf
  | sub hm hp' => subst hg; exact i.nest _ hm h hp' hn hf

theorem outerExt_cons {ls us r o} (h : OuterExt ((ls, us) :: r) o) : ∃ us' r', o = (ls, us') :: r' ∧ us <+: us' ∧ OuterExt r r' := by
  cases h with
  | cons h1 h2 => exact ⟨_, _, rfl, h1, h2⟩

theorem step_block {s N reg : Nat} {rec : Rec} (G : Good s rec) {blk sig : Tree} {st st' : CSt} (hb : Nice s blk)
    (hr : st.over = false → Ok s N reg) (hr' : reg ≤ 255)
    (h : block rec reg blk sig st = some st') : Step s N st st' := by
  unfold block at h
  obtain ⟨⟨g, out⟩, h1, h⟩ := Option.bind_eq_some_iff.1 h
  obtain ⟨sg, locals, c, hc, rfl, rfl⟩ := sig_locals_fn h1
  obtain ⟨sc, hcs⟩ := G blk 0 0 _ c hc (by omega) hb
  obtain ⟨us', out', ho, hu, he⟩ := outerExt_cons sc.ext.outer
  rw [ho] at h
  simp only [Option.pure_def, Option.some.injEq] at h
  subst h
  have e1 : Ext st { st with upvals := us', outer := out' } :=
    ⟨Nat.le_refl _, fun _ _ => rfl, Nat.le_refl _, List.prefix_refl _, hu, Nat.le_refl _, List.prefix_refl _, he, id⟩
  refine ⟨e1.trans (ext_proto ..), fun M hM i => ?_⟩
  have ic := sc.inv 0 (Nat.le_refl 0) (inv_open s 0 locals st.outer st.upvals i.link st.locals)
  have hl := ic.link
  rw [ho] at hl
  have i1 : Inv s M no { st with upvals := us', outer := out' } :=
    ⟨fun f k hk hx => (e1.le (Nat.le_refl M)).ins rfl (i.code (e1.fits f) k hk hx), hl.2, i.loop, i.nest⟩
  by_cases hov : st.over = false
  · exact inv_proto hM (hr hov) (close_neat ic (by omega) sg) (fun x hx => (hl.1 x hx).symm) i1
  · -- registers have wrapped: nothing is claimed of the code
    have hN : Ok s (reg + 1) reg := ok_nat (by omega) (by omega)
    have i2 := inv_proto (N := reg + 1) (M := max M (reg + 1)) (Nat.le_max_right ..) hN (close_neat ic (by omega) sg)
      (fun x hx => (hl.1 x hx).symm) (i1.raise (Nat.le_max_left ..))
    refine ⟨fun f => ?_, i2.link, i2.loop, i2.nest⟩
    exact (hov ((e1.trans (ext_proto ..)).over f.1)).elim

/-! ### Operands -/

theorem step_pnArg {s reg : Nat} {rec : Rec} (G : Good s rec) {a : Tree} {st st' : CSt} (ha : Nice s a) (hr : reg ≤ 255)
    (h : pnArg rec a reg st = some st') : Step s 0 st st' ∧ (emptyParens a = false → reg < st'.stack) := by
  unfold pnArg at h
  split at h
  · -- parentheses
    rename_i l b c tl b' c'
    have hl : Nice s l := by
      have h1 := ha.kids.2.1
      exact (h1.mem (t := .node .list l b c) (by simp)).kids.2.1
    split at h
    · injection h with h; subst h
      rename_i hn
      refine ⟨.refl .., fun he => ?_⟩
      cases l with
      | imm w => simp only [emptyParens] at he; rw [he] at hn; contradiction
      | _ => simp [isNil] at hn
    · split at h
      · rename_i vs _
        refine ⟨step_each (fun i v st st' hv hh => (G v 0 reg st st' hh hr (hl.mem hv)).1) h, fun he => ?_⟩
        cases vs with
        | nil => simp [emptyParens] at he
        | cons v vs =>
          simp only [each] at h
          split at h
          · contradiction
          · rename_i st1 h1
            have a1 := G v 0 reg _ _ h1 hr (hl.mem (by simp))
            have a2 := step_each (s := s) (N := 0) (fun i v st st' hv hh => (G v 0 reg st st' hh hr (hl.mem (by simp [hv]))).1) h
            exact Nat.lt_of_lt_of_le a1.2 a2.ext.stack
      · contradiction
  · have := G _ 0 reg st st' h hr ha
    exact ⟨this.1, fun _ => this.2⟩
  · contradiction
  · have := G _ 0 reg st st' h hr ha
    exact ⟨this.1, fun _ => this.2⟩
  · contradiction

/-! ### Arguments -/

theorem ok_of {s N : Nat} {x : Int} (h1 : 0 ≤ x) (h2 : x < N) (h3 : x < 2048) : Ok s N x := ⟨h1, by omega, h3⟩

theorem step_load {s N r : Nat} {st : CSt} {v : Tree} (hr : st.over = false → Ok s N r) : Step s N st (st.load r v) := by
  have key : Step s N st ((st.const v).1.asm .loadk r (st.const v).2) := (step_const ..).trans (stepK hr (const_lt ..))
  unfold CSt.load
  split
  · split
    · exact step1 rfl hr
    · exact key
  · exact key

theorem lhsOf_nice {s : Nat} {l x : Tree} (hl : Nice s l) (h : lhsOf l = some x) : Nice s x := by
  unfold lhsOf at h
  split at h
  · injection h with h; subst h
    exact (hl.kids.2.1).mem (by simp)
  · injection h with h; subst h; exact hl
  · contradiction
  · injection h with h; subst h; exact hl
  · contradiction

theorem step_argItem {s reg freg n : Nat} {rec : Rec} (G : Good s rec) {v : Tree} {st st' : CSt} (hv : Nice s v) (hr : reg ≤ 255)
    (hf : freg ≤ 255) (hf1 : st.over = false → 1 ≤ freg) (h : argItem rec freg n v reg st = some st') :
    Step s 0 st st' := by
  unfold argItem at h
  split at h
  · rename_i l r c
    have hk := hv.kids
    obtain ⟨st1, h1, h⟩ := Option.bind_eq_some_iff.1 h
    obtain ⟨x, hx, h⟩ := Option.bind_eq_some_iff.1 h
    obtain ⟨st2, h2, h⟩ := Option.bind_eq_some_iff.1 h
    simp only [Option.pure_def, Option.some.injEq] at h
    generalize hsreg : (freg + n + 1) % 256 = sreg at h h1 h2
    have hsl : sreg < 256 := by omega
    have s1 := (G r 0 _ _ st1 h1 (by omega) hk.2.2.1).1
    have w : Step s 0 st ((st.wide (freg + n + 1)).wide (sreg + 1)) := (step_wide ..).trans (step_wide ..)
    have hnx := lhsOf_nice hk.2.1 hx
    have s2 : Step s (sreg + 2) st1 st2 := by
      have hload : ∀ y, Step s (sreg + 2) st1 (st1.load sreg y) := fun y => step_load fun _ => ok_nat (by omega) (by omega)
      split at h2
      · injection h2 with h2; subst h2; exact hload _
      · injection h2 with h2; subst h2; exact hload _
      · exact ((G x 0 sreg _ _ h2 (by omega) hnx).1).mono (by omega)
    have pre := (w.trans s1)
    have s3 : Step s (sreg + 2) st2 (st2.asm .named (freg - 1) (sreg + 1)) := stepNamed fun ho => by
      have o1 := s2.ext.over ho
      have o2 := s1.ext.over o1
      have ⟨w1, o3⟩ := wide_over o2
      have ⟨w2, o4⟩ := wide_over o3
      have := hf1 o4
      exact ⟨ok_of (by omega) (by omega) (by omega), ok_of (by omega) (by omega) (by omega), ok_of (by omega) (by omega) (by omega)⟩
    have tot := ((pre.mono (Nat.zero_le (sreg + 2))).trans (s2.trans s3)).trans (step_regs _ _ _ (sreg + 1))
    subst h
    exact tot.drop (by have := regs_lt (st2.asm .named (freg - 1) (sreg + 1)) (sreg + 1); omega)
  · exact (G _ 0 reg st st' h hr hv).1
  · contradiction

theorem step_argItems {s freg n : Nat} {rec : Rec} (G : Good s rec) (hf : freg ≤ 255) : ∀ {l : List Tree} {reg : Nat} {st st' : CSt} {r : Nat},
    Nice s (.tup l) → reg ≤ 255 → (st.over = false → 1 ≤ freg) → argItems rec freg n l reg st = some (st', r) →
    Step s 0 st st' ∧ r ≤ 255 ∧ (st'.over = false → r = reg + l.length)
  | [], reg, st, st', r, _, hr, _, h => by
    simp only [argItems, Option.some.injEq, Prod.mk.injEq] at h
    obtain ⟨rfl, rfl⟩ := h
    exact ⟨.refl .., hr, fun _ => rfl⟩
  | v :: l, reg, st, st', r, hn, hr, hf1, h => by
    simp only [argItems] at h
    obtain ⟨st1, h1, h⟩ := Option.bind_eq_some_iff.1 h
    have s1 := step_argItem G (hn.mem (by simp)) (by omega) hf (fun o => hf1 (wide_over o).2) h1
    have s0 := (step_wide s 0 st (reg + 1)).trans s1
    have hn' : Nice s (.tup l) := by
      rcases hn with hn | hn
      · simp only [Fine, FineAll, Bool.and_eq_true] at hn; exact .inl (by simpa [Fine] using hn.2)
      · exact .inr hn
    obtain ⟨s2, h2, h3⟩ := step_argItems G hf hn' (by omega) (fun o => hf1 (s0.ext.over o)) h
    refine ⟨s0.trans s2, h2, fun o => ?_⟩
    have w := wide_over (s1.ext.over (s2.ext.over o))
    rw [h3 o, Nat.mod_eq_of_lt w.1]; simp; omega

theorem step_arg {s reg : Nat} {rec : Rec} (G : Good s rec) {args : Tree} {inc : Bool} {st st' : CSt} {r : Nat}
    (hn : Nice s args) (hr : reg ≤ 255) (hf1 : inc = true → st.over = false → 1 ≤ reg)
    (h : argAsmb rec args reg inc st = some (st', r)) :
    Step s (r + 1) st st' ∧ r ≤ 255 ∧ (inc = false → r = reg) ∧ (st'.over = false → reg ≤ r) := by
  unfold argAsmb at h
  split at h
  · have hl := hn.kids.2.1
    split at h
    · simp only [Option.some.injEq, Prod.mk.injEq] at h
      obtain ⟨rfl, rfl⟩ := h
      exact ⟨.refl .., hr, fun _ => rfl, fun _ => Nat.le_refl _⟩
    · split at h
      · split at h
        · rename_i hi
          obtain ⟨a1, a2, a3⟩ := step_argItems G hr hl hr (hf1 hi) h
          exact ⟨a1.mono (by omega), a2, fun h => by simp [hi] at h, fun o => by rw [a3 o]; omega⟩
        · obtain ⟨st1, h1, h⟩ := Option.map_eq_some_iff.1 h
          simp only [Prod.mk.injEq] at h
          obtain ⟨rfl, rfl⟩ := h
          exact ⟨(step_each (s := s) (N := 0) (fun i v st st' hv hh => (G v 0 _ st st' hh hr (hl.mem hv)).1) h1).mono (by omega),
            hr, fun _ => rfl, fun _ => Nat.le_refl _⟩
      · contradiction
  · split at h
    · rename_i hi
      obtain ⟨st1, h1, h⟩ := Option.map_eq_some_iff.1 h
      simp only [Prod.mk.injEq] at h
      obtain ⟨rfl, rfl⟩ := h
      have s1 := (G _ 0 _ _ _ h1 (by omega) hn).1
      refine ⟨((step_wide ..).trans s1).mono (by omega), by omega, fun h => by simp [hi] at h, fun o => ?_⟩
      have w := wide_over (s1.ext.over o)
      omega
    · obtain ⟨st1, h1, h⟩ := Option.map_eq_some_iff.1 h
      simp only [Prod.mk.injEq] at h
      obtain ⟨rfl, rfl⟩ := h
      exact ⟨((G _ 0 _ _ _ h1 hr hn).1).mono (by omega), hr, fun _ => rfl, fun _ => Nat.le_refl _⟩
  · split at h
    · split at h
      · rename_i hi
        simp only [Option.some.injEq, Prod.mk.injEq] at h
        obtain ⟨rfl, rfl⟩ := h
        refine ⟨(step_wide ..).trans (step1 rfl fun _ => ok_nat (by omega) (by omega)), by omega, fun h => by simp [hi] at h,
          fun o => ?_⟩
        have w := wide_over (n := reg + 1) o
        omega
      · simp only [Option.some.injEq, Prod.mk.injEq] at h
        obtain ⟨rfl, rfl⟩ := h
        exact ⟨step1 rfl fun _ => ok_nat (by omega) (by omega), hr, fun _ => rfl, fun _ => Nat.le_refl _⟩
    · contradiction
  · contradiction

end Potion.CompileAll
