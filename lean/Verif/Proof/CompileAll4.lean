import Verif.Proof.CompileAll3
/-!
Values, assignments and lists.
-/
namespace Potion.CompileAll
open Potion Potion.Vm Potion.Peg

/-- The promise is kept, or a register number has wrapped. -/
theorem Step.done {s N : Nat} {a b : CSt} (h : Step s N a b) (hN : b.over = false → N ≤ b.stack) : Step s 0 a b := by
  by_cases ho : b.over = false
  · exact h.drop (hN ho)
  · refine ⟨h.ext, fun M _ i => ?_⟩
    have := h.inv (max M N) (Nat.le_max_right ..) (i.raise (Nat.le_max_left ..))
    exact ⟨fun f => (ho f.1).elim, this.link, this.loop, this.nest⟩
theorem Step.here {s reg : Nat} {a b : CSt} (h : Step s (reg + 1) a b) (hs : reg < a.stack) : Step s 0 a b :=
  h.drop (Nat.le_trans hs h.ext.stack)
/-- Steps, then PN_REG. -/
theorem Step.reg {s N r : Nat} {a b : CSt} (h : Step s N a b) (hN : b.over = false → N ≤ max b.stack (r + 1)) : Step s 0 a (b.regs r) := by
  refine (h.trans (step_regs s N b r)).done fun o => ?_
  have h1 := regs_lt b r
  have h2 := (ext_regs b r).stack
  have := hN ((ext_regs b r).over o)
  omega

theorem place_ext {a b : CSt} (e : Ext a b) {up n} (h : Place a up n) : Place b up n := by
  unfold Place at *
  split at h
  · rename_i hu; rw [if_pos hu]; exact Nat.lt_of_lt_of_le h e.upvals.length_le
  · rename_i hu; rw [if_neg hu]; exact Nat.lt_of_lt_of_le h e.locals.length_le

/-- A constant of the table is loaded. -/
theorem step_constK {s N : Nat} {a : Int} (st : CSt) (v : Tree) (ha : st.over = false → Ok s N a) :
    Step s N st ((st.const v).1.asm .loadk a (st.const v).2) :=
  (step_const ..).trans (stepK ha (const_lt ..))
theorem step_varGet {s N : Nat} {a : Int} (st : CSt) (v : Tree) (ha : st.over = false → Ok s N a) :
    Step s N st ((st.var v).1.asm (getOp (st.var v).2.1) a (st.var v).2.2) :=
  (step_var ..).trans (stepGet (fun o => ha ((step_var s N st v).ext.over o)) (var_place ..))

theorem step_index {s reg : Nat} {tpl items : Tree} {st st' : CSt} (hr : reg ≤ 255) (hs : reg < st.stack)
    (h : index tpl items reg st = some st') : Step s 0 st st' := by
  unfold index at h
  have hv : Step s (reg + 1) st ((st.var tpl).1.asm (getOp (st.var tpl).2.1) reg (st.var tpl).2.2) :=
    step_varGet st tpl fun _ => ok_nat (by omega) (by omega)
  have hv0 := hv.here hs
  have hstk := Nat.lt_of_lt_of_le hs hv0.ext.stack
  rcases hvar : st.var tpl with ⟨st0, up, num⟩
  rw [hvar] at h hv0 hstk
  dsimp only at h hv0 hstk
  generalize st0.asm (getOp up) reg num = st1 at h hv0 hstk
  have key : ∀ st2, Step s 0 st1 st2 → Step s 0 st st2 := fun st2 h2 => hv0.trans h2
  have kt : ∀ k : Tree, some (CSt.regs (CSt.asm ((st1.const k).1.asm .loadk (reg + 1) (st1.const k).2) .gettable reg (reg + 1)) (reg + 1)) = some st' → Step s 0 st st' := by
    intro k h
    injection h with h; subst h
    refine key _ (Step.reg (N := reg + 2) ((step_constK st1 k fun _ => ok_of (by omega) (by omega) (by omega)).trans
      (step2 rfl fun _ => ⟨ok_of (by omega) (by omega) (by omega), ok_of (by omega) (by omega) (by omega)⟩)) fun _ => by omega)
  split at h
  · split at h
    · injection h with h; subst h
      refine key _ (Step.reg (N := reg + 2) ((step_locl ..).trans ((stepL (.inl rfl) (fun _ => ok_of (by omega) (by omega) (by omega)) (locl_lt ..)).trans
        (stepTuple fun _ => ⟨ok_of (by omega) (by omega) (by omega), by omega, by omega, fun _ => ok_of (by omega) (by omega) (by omega)⟩))) fun _ => by omega)
    · split at h
      · split at h
        · split at h
          · injection h with h; subst h
            refine key _ ?_
            rename_i w _ _
            have a1 : Step s 0 st1 (CSt.regs ((st1.const (.imm w)).1.asm .loadk (reg + 1) (st1.const (.imm w)).2) (reg + 1)) :=
              Step.reg (N := reg + 2) (step_constK st1 (.imm w) fun _ => ok_of (by omega) (by omega) (by omega)) fun _ => by omega
            refine a1.trans (Step.here (reg := reg) (stepTuple fun _ => ⟨ok_of (by omega) (by omega) (by omega), by omega, by omega, fun _ => by omega⟩)
              (Nat.lt_of_lt_of_le hstk a1.ext.stack))
          · injection h with h; subst h
            refine key _ (Step.here (reg := reg) (stepTuple fun _ => ⟨ok_of (by omega) (by omega) (by omega), by omega, by omega, fun _ => by omega⟩) hstk)
        · exact kt _ h
      · exact kt _ h
      · exact kt _ h
      · exact kt _ h
      · contradiction
    · contradiction
  · contradiction

theorem step_value {s reg : Nat} {a args : Tree} {st st' : CSt} (hr : reg ≤ 255) (hs : reg < st.stack)
    (h : value a args reg st = some st') : Step s 0 st st' := by
  have key : ∀ v, Step s 0 st (st.load reg v) := fun v => Step.here (reg := reg) (step_load fun _ => ok_nat (by omega) (by omega)) hs
  unfold value at h
  split at h
  · exact step_index hr hs h
  · contradiction
  all_goals first
    | contradiction
    | (split at h
       · injection h with h; subst h; exact key _
       · contradiction)

/-! ### Assignments -/

/-- What is known of the target of an assignment. -/
def TgOk (tg : Target) (reg breg num : Nat) (st : CSt) : Prop :=
  match tg with
  | .upval => breg = reg ∧ num < st.upvals.length
  | .local => breg = reg ∧ num < st.locals.length
  | .global => num = breg ∧ (st.over = false → breg = reg + 1)
  | .def | .path => num = breg ∧ (st.over = false → breg = reg + 2)

theorem TgOk.ext {tg reg breg num} {a b : CSt} (h : TgOk tg reg breg num a) (e : Ext a b) : TgOk tg reg breg num b := by
  unfold TgOk at *
  cases tg
  · exact ⟨h.1, Nat.lt_of_lt_of_le h.2 e.upvals.length_le⟩
  · exact ⟨h.1, Nat.lt_of_lt_of_le h.2 e.locals.length_le⟩
  all_goals exact ⟨h.1, fun o => h.2 (e.over o)⟩

theorem step_target {s reg c N : Nat} {k : Kind} {x : Tree} {st st1 : CSt} {tg num breg} (hr : reg ≤ 255) (hN : reg + 1 ≤ N)
    (hN2 : tg ≠ .upval → tg ≠ .local → reg + 2 ≤ N)
    (h : target k x c reg st = some (st1, tg, num, breg)) :
    Step s N st st1 ∧ breg ≤ 255 ∧ TgOk tg reg breg num st1 ∧ (k = .query → tg ≠ .path) := by
  unfold target at h
  split at h
  · split at h
    · split at h
      · simp only [Option.some.injEq, Prod.mk.injEq] at h
        obtain ⟨rfl, rfl, rfl, rfl⟩ := h
        refine ⟨(step_constK st _ fun _ => ok_of (by omega) (by omega) (by omega)).trans (step_wide ..), by omega, ⟨rfl, fun o => ?_⟩, by simp⟩
        have := (wide_over o).1
        omega
      · split at h
        · rcases hvar : st.var (.str ‹_›) with ⟨st0, up, n⟩
          have h1 := step_var s N st (.str ‹_›)
          have h2 := var_place st (.str ‹_›)
          rw [hvar] at h h1 h2
          simp only [Option.some.injEq, Prod.mk.injEq] at h
          obtain ⟨rfl, rfl, rfl, rfl⟩ := h
          refine ⟨h1, hr, ?_, by cases up <;> simp⟩
          cases up
          · exact ⟨rfl, h2⟩
          · exact ⟨rfl, h2⟩
        · simp only [Option.some.injEq, Prod.mk.injEq] at h
          obtain ⟨rfl, rfl, rfl, rfl⟩ := h
          have := hN2 (by simp) (by simp)
          rename_i sx _ _
          refine ⟨((step_const ..).trans (step_wide ..)).trans ((stepK (st := (st.const (.str sx)).1.wide (reg + 1)) (fun o => ?_) (const_lt st (.str sx))).trans (step_wide ..)), by omega, ⟨rfl, fun o => ?_⟩, by simp⟩
          · have := (wide_over o).1
            exact ok_of (by omega) (by omega) (by omega)
          · have := (wide_over o).1
            omega
    · contradiction
  · rename_i hk
    split at h
    · simp only [Option.some.injEq, Prod.mk.injEq] at h
      obtain ⟨rfl, rfl, rfl, rfl⟩ := h
      have a1 : Step s N (st.const x).1 (if c = 0 then ((st.const x).1.path (st.const x).2).asm .self reg 0 else (st.const x).1) := by
        split
        · exact (step_path ..).trans (step1 rfl fun _ => ok_of (by omega) (by omega) (by omega))
        · exact .refl ..
      have hl : (st.const x).2 < (if c = 0 then ((st.const x).1.path (st.const x).2).asm .self reg 0 else (st.const x).1).values.length :=
        Nat.lt_of_lt_of_le (const_lt ..) a1.ext.values
      have := hN2 (by simp) (by simp)
      refine ⟨((step_const ..).trans a1).trans ((step_wide ..).trans ((stepK (st := CSt.wide _ _) (fun o => ?_) hl).trans (step_wide ..))), by omega, ⟨rfl, fun o => ?_⟩, ?_⟩
      · have := (wide_over o).1
        exact ok_of (by omega) (by omega) (by omega)
      · have := (wide_over o).1
        omega
      · rintro rfl; simp at hk
    · contradiction

/-- TESTJMP over the store that follows it. -/
theorem step_skip {s N : Nat} {st : CSt} {a a' b' : Int} (ha : st.over = false → Ok s N a)
    (hab : st.over = false → Ok s N a' ∧ Ok s N (a' + 1) ∧ Ok s N b') :
    Step s N st ((st.asm .testjmp a 1).asm .setpath a' b') := by
  refine ⟨(ext_asm ..).trans (ext_asm ..), fun M hM i => ?_⟩
  have i0 : Inv s M (· = st.len) st := ⟨fun f k hk _ => i.code f k hk id, i.link, i.loop, i.nest⟩
  have i1 : Inv s M (· = st.len) (st.asm .testjmp a 1) := inv_asm i0 fun _ h => (h rfl).elim
  have i2 : Inv s M (· = st.len) ((st.asm .testjmp a 1).asm .setpath a' b') := by
    refine inv_asm i1 fun f _ => ins_three rfl (asm_at ..) ((hab f.1).1.reg hM) ?_ ((hab f.1).2.2.reg hM)
    rw [(hab f.1).1.trunc, ← (hab f.1).2.1.trunc]; exact (hab f.1).2.1.reg hM
  refine ⟨fun f k hk _ => ?_, i2.link, i2.loop, i2.nest⟩
  by_cases hkl : k = st.len
  · subst hkl
    have hc : (((st.asm .testjmp a 1).asm .setpath a' b').frame s M).code st.len = ⟨.testjmp, trunc12 a, trunc12 1⟩ :=
      (asm_before _ _ _ _ (by simp [CSt.asm])).trans (asm_at ..)
    have hr := (ha f.1).reg (st := (st.asm .testjmp a 1).asm .setpath a' b') hM
    have hp : (((st.asm .testjmp a 1).asm .setpath a' b').frame s M).pos ((st.len : Int) + 1 + trunc12 1) := by
      rw [trunc_id (by omega) (by omega)]; exact ⟨by omega, by simp only [CSt.frame, CSt.asm]; omega⟩
    unfold Frame.ins; rw [hc]
    exact ⟨hr, hp⟩
  · exact i2.code f k hk hkl

theorem step_store {s reg breg num N : Nat} {k : Kind} {tg : Target} {st : CSt} (hr : reg ≤ 255) (hb : breg ≤ 255)
    (ht : TgOk tg reg breg num st) (hq : k ≠ .query ∨ 1 ≤ s) (hN : breg + 1 ≤ N) (hN' : reg + 1 ≤ N) :
    Step s N st (store k tg reg breg num st) := by
  have hR : ∀ st : CSt, st.over = false → Ok s N (reg : Int) := fun _ _ => ok_of (by omega) (by omega) (by omega)
  have hB : ∀ st : CSt, st.over = false → Ok s N (breg : Int) := fun _ _ => ok_of (by omega) (by omega) (by omega)
  unfold store
  cases tg with
  | upval =>
    dsimp only
    split
    · rename_i hk
      refine ((stepU (.inl rfl) (hB st) ht.2).trans (stepCond (.inl rfl) (fun _ => hB st ‹_›) ?_)).trans (stepU (.inr rfl) (fun _ => hR st ‹_›) ht.2)
      exact .inr ⟨rfl, hq.resolve_left (fun h => h hk)⟩
    · exact stepU (.inr rfl) (hR st) ht.2
  | «local» =>
    dsimp only
    split
    · rename_i hk
      refine ((stepL (.inl rfl) (hB st) ht.2).trans (stepCond (.inl rfl) (fun _ => hB st ‹_›) ?_))
      exact .inr ⟨rfl, hq.resolve_left (fun h => h hk)⟩
    · exact stepL (.inr rfl) (hR st) ht.2
  | global =>
    obtain ⟨rfl, h1⟩ := ht
    exact step2 rfl fun o => ⟨hR st o, hB st o⟩
  | «def» =>
    obtain ⟨rfl, h1⟩ := ht
    exact step3 rfl fun o => ⟨hR st o, by have := h1 o; exact ok_of (by omega) (by omega) (by omega), hB st o⟩
  | path =>
    obtain ⟨rfl, h1⟩ := ht
    dsimp only
    split
    · exact (step2 rfl fun o => ⟨hR st o, hB st o⟩).trans (step_skip (fun o => hR st o) fun o =>
        ⟨hR st o, by have := h1 o; exact ok_of (by omega) (by omega) (by omega), hB st o⟩)
    · exact step3 rfl fun o => ⟨hR st o, by have := h1 o; exact ok_of (by omega) (by omega) (by omega), hB st o⟩

theorem step_assignTo {s reg c : Nat} {rec : Rec} (G : Good s rec) {k : Kind} {x args rhs : Tree} {st st' : CSt} (hr : reg ≤ 255)
    (hs : reg < st.stack) (ha : Nice s args) (hrhs : Nice s rhs) (hq : k ≠ .query ∨ 1 ≤ s)
    (h : assignTo rec k x args rhs c reg st = some st') : Step s 0 st st' := by
  unfold assignTo at h
  obtain ⟨⟨st1, tg, num, breg⟩, h1, h⟩ := Option.bind_eq_some_iff.1 h
  dsimp only at h
  split at h
  · obtain ⟨st2, h2, h⟩ := Option.bind_eq_some_iff.1 h
    simp only [Option.pure_def, Option.some.injEq] at h
    subst h
    have hb : breg ≤ 255 := (step_target (s := s) (N := reg + 2) hr (by omega) (fun _ _ => Nat.le_refl _) h1).2.1
    obtain ⟨t2, hst⟩ := G _ _ _ _ _ h2 hb hrhs
    by_cases hl : tg = .upval ∨ tg = .local
    · obtain ⟨t1, _, ht, _⟩ := step_target (s := s) (N := reg + 1) hr (by omega) (fun a b => by rcases hl with h | h <;> contradiction) h1
      have hbr : breg = reg := by rcases hl with rfl | rfl <;> exact ht.1
      have t3 := step_store (s := s) (N := reg + 1) hr hb (ht.ext t2.ext) hq (by omega) (by omega)
      exact Step.reg (t1.trans ((t2.mono (by omega)).trans t3)) fun _ => by omega
    · obtain ⟨t1, _, ht, _⟩ := step_target (s := s) (N := max (reg + 2) (breg + 1)) hr (by omega) (fun a b => by omega) h1
      have t3 := step_store (s := s) (N := max (reg + 2) (breg + 1)) hr hb (ht.ext t2.ext) hq (by omega) (by omega)
      refine Step.reg (t1.trans ((t2.mono (by omega)).trans t3)) fun o => ?_
      have o1 := t3.ext.over o
      have : reg + 1 ≤ breg := by
        have hx := ht.ext t2.ext
        cases tg
        · simp at hl
        · simp at hl
        all_goals (have := hx.2 o1; omega)
      omega
  · obtain ⟨⟨st2, br⟩, h2, h⟩ := Option.bind_eq_some_iff.1 h
    obtain ⟨st3, h3, h⟩ := Option.bind_eq_some_iff.1 h
    simp only [Option.pure_def, Option.some.injEq] at h
    subst h
    generalize hN : max (reg + 3) (max (br + 1) ((br + 1) % 256 + 1)) = N
    obtain ⟨t1, hb, ht, _⟩ := step_target (s := s) (N := N) hr (by omega) (fun _ _ => by omega) h1
    have hw := step_wide s N st1 (reg + 1)
    have ht' := ht.ext hw.ext
    have t2 : Step s N (st1.wide (reg + 1)) ((st1.wide (reg + 1)).asm tg.op ((reg + 1) % 256 : Nat) num) := by
      have hR : (st1.wide (reg + 1)).over = false → Ok s N ((reg + 1) % 256 : Nat) := fun _ => ok_nat (by omega) (by omega)
      cases tg with
      | upval => exact stepU (.inl rfl) hR ht'.2
      | «local» => exact stepL (.inl rfl) hR ht'.2
      | global => exact step2 rfl fun o => ⟨hR o, by have := ht'.2 o; have := ht'.1; exact ok_nat (by omega) (by omega)⟩
      | «def» => exact step3 rfl fun o => ⟨hR o, by have := (wide_over o).1; exact ok_of (by omega) (by omega) (by omega),
          by have := ht'.2 o; have := ht'.1; exact ok_nat (by omega) (by omega)⟩
      | path => exact step2 rfl fun o => ⟨hR o, by have := ht'.2 o; have := ht'.1; exact ok_nat (by omega) (by omega)⟩
    have t3 : Step s N ((st1.wide (reg + 1)).asm tg.op ((reg + 1) % 256 : Nat) num)
        (((st1.wide (reg + 1)).asm tg.op ((reg + 1) % 256 : Nat) num).asm .callset reg ((reg + 1) % 256 : Nat)) :=
      step2 rfl fun o => ⟨ok_nat (by omega) (by omega), ok_nat (by omega) (by omega)⟩
    obtain ⟨t4, hbr, _, hle⟩ := step_arg G ha (by omega) (fun _ o => by have := (wide_over (n := reg + 1) o).1; omega) h2
    have t5 := (step_wide s 0 st2 (br + 1)).trans (G _ _ _ _ _ h3 (by omega) hrhs).1
    have t6 : Step s N st3 (st3.asm .call reg ((br + 1) % 256 : Nat)) := stepCall fun o => by
      have o2 := (G _ _ _ _ _ h3 (by omega) hrhs).1.ext.over o
      have := (wide_over o2).1
      have := hle (wide_over o2).2
      have := (wide_over (n := reg + 1) (t4.ext.over (wide_over o2).2)).1
      exact ⟨ok_nat (by omega) (by omega), by omega, ok_nat (by omega) (by omega)⟩
    refine Step.reg (t1.trans (hw.trans (t2.trans (t3.trans ((t4.mono (by omega)).trans ((t5.mono (by omega)).trans t6)))))) fun o => ?_
    have o2 := (G _ _ _ _ _ h3 (by omega) hrhs).1.ext.over o
    have := (wide_over o2).1
    have := hle (wide_over o2).2
    have := (wide_over (n := reg + 1) (t4.ext.over (wide_over o2).2)).1
    omega

theorem step_assign {s reg c : Nat} {rec : Rec} (G : Good s rec) {lhs rhs x : Tree} {st st' : CSt} (hr : reg ≤ 255)
    (hs : reg < st.stack) (hn : Nice s (.node .assign lhs rhs x)) (h : assign rec lhs rhs c reg st = some st') : Step s 0 st st' := by
  obtain ⟨hf, hl, hrhs, _⟩ := hn.kids
  unfold assign at h
  split at h
  · split at h
    · rename_i l
      obtain ⟨st1, h1, h⟩ := Option.bind_eq_some_iff.1 h
      have hl' := hl.kids.2.1
      have t1 : Step s 0 st st1 := step_each (fun i v st st' hv hh => (G v i reg st st' hh hr (hl'.mem (List.dropLast_subset _ hv))).1) h1
      split at h
      · rename_i k y v z hg
        have hm : Tree.node k y v z ∈ l := List.mem_of_getLast? hg
        refine t1.trans (step_assignTo G hr (Nat.lt_of_lt_of_le hs t1.ext.stack) (hl'.mem hm).kids.2.2.1 hrhs ?_ h)
        rcases hf with hf | hf
        · refine .inl fun hk => ?_
          subst hk
          simp [fine, assigned, hg] at hf
        · exact .inr hf
      · contradiction
    · contradiction
  · rename_i k y v z hk
    refine step_assignTo G hr hs hl.kids.2.2.1 hrhs ?_ h
    rcases hf with hf | hf
    · refine .inl fun hk => ?_
      subst hk
      simp [fine, assigned] at hf
    · exact .inr hf
  · contradiction

theorem step_incr {s reg : Nat} {x : Tree} {n : PN} {st : CSt} (hr : reg ≤ 255) : Step s 0 st (incr x n reg st) := by
  have hp := var_place st x
  have hv := fun N => step_var s N st x
  unfold incr
  rcases hvar : st.var x with ⟨st0, up, num⟩
  rw [hvar] at hv hp
  dsimp only at hv hp ⊢
  generalize hb : (if isInt n then (reg + 1) % 256 else reg) = breg
  have hb' : breg ≤ 255 := by split at hb <;> omega
  generalize hN : max (reg + 1) (breg + 2) = N
  have t1 : Step s N st0 (st0.asm (getOp up) reg num) := stepGet (fun _ => ok_nat (by omega) (by omega)) hp
  have t2 : Step s N (st0.asm (getOp up) reg num)
      (if isInt n then ((st0.asm (getOp up) reg num).wide (reg + 1)).asm .move breg reg else st0.asm (getOp up) reg num) := by
    split
    · exact (step_wide ..).trans (step2 rfl fun _ => ⟨ok_nat (by omega) (by omega), ok_nat (by omega) (by omega)⟩)
    · exact .refl ..
  have t12 := t1.trans t2
  have ho : (if isInt n then ((st0.asm (getOp up) reg num).wide (reg + 1)).asm .move breg reg else st0.asm (getOp up) reg num).over = false →
      reg ≤ breg := by
    split
    · rename_i hi
      rw [if_pos hi] at hb
      intro o
      have := (wide_over (n := reg + 1) o).1
      omega
    · rename_i hi
      rw [if_neg hi] at hb; omega
  generalize (if isInt n then ((st0.asm (getOp up) reg num).wide (reg + 1)).asm .move breg reg else st0.asm (getOp up) reg num) = st1 at t12 ho
  refine Step.reg (((hv N).trans t12).trans (((step1 rfl fun _ => ok_of (by omega) (by omega) (by omega)).trans
    (step2 rfl fun _ => ⟨ok_of (by omega) (by omega) (by omega), ok_of (by omega) (by omega) (by omega)⟩)).trans
    (stepSet (fun _ => ok_of (by omega) (by omega) (by omega)) (place_ext t12.ext hp)))) fun o => ?_
  have := ho o
  omega

/-! ### Lists, paths and licks -/

theorem step_listItem {s reg : Nat} {rec : Rec} (G : Good s rec) {v : Tree} {st st' : CSt} (hr : reg ≤ 255) (hn : Nice s v)
    (h : listItem rec reg v st = some st') : Step s 0 st st' := by
  unfold listItem at h
  split at h
  · rename_i l r c
    have hk := hn.kids
    obtain ⟨x, hx, h⟩ := Option.bind_eq_some_iff.1 h
    obtain ⟨st1, h1, h⟩ := Option.bind_eq_some_iff.1 h
    obtain ⟨st2, h2, h⟩ := Option.bind_eq_some_iff.1 h
    simp only [Option.pure_def, Option.some.injEq] at h
    subst h
    have t1 : Step s (reg + 3) st st1 := by
      split at h1
      · injection h1 with h1; subst h1
        exact step_constK st _ fun _ => ok_of (by omega) (by omega) (by omega)
      · exact ((step_wide ..).trans (G _ _ _ _ _ h1 (by omega) (lhsOf_nice hk.2.1 hx)).1).mono (by omega)
    have t2 : Step s (reg + 3) st1 st2 := ((step_wide ..).trans (G _ _ _ _ _ h2 (by omega) hk.2.2.1).1).mono (by omega)
    exact Step.reg (N := reg + 3) ((t1.trans t2).trans (step3 rfl fun _ => ⟨ok_of (by omega) (by omega) (by omega),
      ok_of (by omega) (by omega) (by omega), ok_of (by omega) (by omega) (by omega)⟩)) fun _ => by omega
  · obtain ⟨st1, h1, h⟩ := Option.bind_eq_some_iff.1 h
    simp only [Option.pure_def, Option.some.injEq] at h
    subst h
    have t1 : Step s (reg + 2) st st1 := ((step_wide ..).trans (G _ _ _ _ _ h1 (by omega) hn).1).mono (by omega)
    exact Step.reg (N := reg + 2) (t1.trans (step2 rfl fun _ => ⟨ok_of (by omega) (by omega) (by omega),
      ok_of (by omega) (by omega) (by omega)⟩)) fun _ => by omega
  · contradiction

theorem step_path' {s reg c : Nat} {q : Bool} {x : Tree} {st : CSt} (hr : reg ≤ 255) : Step s 0 st (pathNode q x c reg st) := by
  unfold pathNode
  dsimp only
  have t1 : Step s (reg + 2) st (if c = 0 then ((st.const x).1.path (st.const x).2).asm .self reg 0 else (st.const x).1) := by
    refine (step_const s (reg + 2) st x).trans ?_
    split
    · exact (step_path ..).trans (step1 rfl fun _ => ok_of (by omega) (by omega) (by omega))
    · exact .refl ..
  have hl : (st.const x).2 < (if c = 0 then ((st.const x).1.path (st.const x).2).asm .self reg 0 else (st.const x).1).values.length := by
    split <;> exact const_lt ..
  generalize (if c = 0 then ((st.const x).1.path (st.const x).2).asm .self reg 0 else (st.const x).1) = st1 at t1 hl
  have t2 : Step s (reg + 2) st1 ((st1.asm .loadk (reg + 1) (st.const x).2).asm .getpath reg (reg + 1)) :=
    (stepK (fun _ => ok_of (by omega) (by omega) (by omega)) hl).trans
      (step2 rfl fun _ => ⟨ok_of (by omega) (by omega) (by omega), ok_of (by omega) (by omega) (by omega)⟩)
  refine Step.reg (N := reg + 2) ((t1.trans t2).trans ?_) fun _ => by omega
  split
  · exact step1 rfl fun _ => ok_of (by omega) (by omega) (by omega)
  · exact .refl ..

theorem step_lick {s reg : Nat} {rec : Rec} (G : Good s rec) {x v t : Tree} {st st' : CSt} (hr : reg ≤ 255)
    (hv : Nice s v) (ht : Nice s t) (h : lickNode rec x v t reg st = some st') : Step s 0 st st' := by
  have t0 := fun N (h : reg + 1 ≤ N) => step_constK (s := s) (N := N) (a := reg) st x fun _ => ok_nat (by omega) (by omega)
  unfold lickNode at h
  rcases hc : st.const x with ⟨sc, nc⟩
  rw [hc] at h t0
  dsimp only at h t0
  obtain ⟨⟨st1, b1⟩, h1, h⟩ := Option.bind_eq_some_iff.1 h
  obtain ⟨⟨st2, b2⟩, h2, h⟩ := Option.bind_eq_some_iff.1 h
  simp only [Option.pure_def, Option.some.injEq] at h
  subst h
  generalize hN : max (reg + 1) (max (b1 + 1) (b2 + 1)) = N
  replace t0 := t0 N (by omega)
  generalize sc.asm .loadk reg nc = st0 at t0 h1
  obtain ⟨t1, hb1, hle1⟩ : Step s N st0 st1 ∧ b1 ≤ 255 ∧ (st1.over = false → reg ≤ b1) := by
    split at h1
    · obtain ⟨st1', h1', h3⟩ := Option.map_eq_some_iff.1 h1
      simp only [Prod.mk.injEq] at h3
      obtain ⟨rfl, rfl⟩ := h3
      have := (G _ _ _ _ _ h1' (by omega) hv).1
      exact ⟨((step_wide ..).trans this).mono (by omega), by omega, fun o => by have := (wide_over (this.ext.over o)).1; omega⟩
    · split at h1
      · simp only [Option.some.injEq, Prod.mk.injEq] at h1
        obtain ⟨rfl, rfl⟩ := h1
        exact ⟨(step_wide ..).trans (step1 rfl fun _ => ok_nat (by omega) (by omega)), by omega,
          fun o => by have := (wide_over (n := reg + 1) o).1; omega⟩
      · simp only [Option.some.injEq, Prod.mk.injEq] at h1
        obtain ⟨rfl, rfl⟩ := h1
        exact ⟨.refl .., hr, fun _ => Nat.le_refl _⟩
  obtain ⟨t2, hb2, hle2⟩ : Step s N st1 st2 ∧ b2 ≤ 255 ∧ (st2.over = false → b1 ≤ b2) := by
    split at h2
    · obtain ⟨st1', h2', h3⟩ := Option.map_eq_some_iff.1 h2
      simp only [Prod.mk.injEq] at h3
      obtain ⟨rfl, rfl⟩ := h3
      have := (G _ _ _ _ _ h2' (by omega) ht).1
      exact ⟨((step_wide ..).trans this).mono (by omega), by omega, fun o => by have := (wide_over (this.ext.over o)).1; omega⟩
    · simp only [Option.some.injEq, Prod.mk.injEq] at h2
      obtain ⟨rfl, rfl⟩ := h2
      exact ⟨.refl .., hb1, fun _ => Nat.le_refl _⟩
  have hf : st2.over = false → reg ≤ b2 ∧ b1 ≤ b2 := fun o => ⟨Nat.le_trans (hle1 (t2.ext.over o)) (hle2 o), hle2 o⟩
  exact Step.reg (((t0.trans t1).trans t2).trans (stepLick fun o => ⟨ok_nat (by omega) (by omega), by have := hf o; omega,
    ok_nat (by omega) (by omega)⟩)) fun o => by have := hf o; omega

end Potion.CompileAll
