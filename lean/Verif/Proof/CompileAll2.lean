import Verif.Proof.CompileAll1
/-!
Emitting and patching instructions.
-/
namespace Potion.CompileAll
open Potion Potion.Vm Potion.Peg

/-- Instructions that touch register `a`; `a` and `b`; `a`, `a + 1` and `b`. -/
def one : Op → Bool
  | .loadpn | .self | .newtuple | .test | .ret => true
  | _ => false
def two : Op → Bool
  | .move | .settuple | .global | .gettable | .getpath | .bind | .msg | .callset | .class
  | .add | .sub | .mult | .div | .rem | .pow | .cmp | .eq | .neq | .lt | .lte | .gt | .gte | .bitl | .bitr | .not | .bitn => true
  | _ => false
def three : Op → Bool
  | .settable | .setpath | .def => true
  | _ => false

theorem ins_one {F : Frame} {k : Nat} {op a b} (h : one op = true) (hc : F.code k = ⟨op, a, b⟩) (ha : F.reg a) : F.ins k := by
  unfold Frame.ins; rw [hc]; cases op <;> first | exact ha | simp [one] at h
theorem ins_two {F : Frame} {k : Nat} {op a b} (h : two op = true) (hc : F.code k = ⟨op, a, b⟩) (ha : F.reg a) (hb : F.reg b) :
    F.ins k := by
  unfold Frame.ins; rw [hc]; cases op <;> first | exact ⟨ha, hb⟩ | simp [two] at h
theorem ins_three {F : Frame} {k : Nat} {op a b} (h : three op = true) (hc : F.code k = ⟨op, a, b⟩) (ha : F.reg a)
    (ha' : F.reg (a + 1)) (hb : F.reg b) : F.ins k := by
  unfold Frame.ins; rw [hc]; cases op <;> first | exact ⟨ha, ha', hb⟩ | simp [three] at h

theorem ins_loc {F : Frame} {k : Nat} {op a b} (h : op = .getlocal ∨ op = .setlocal) (hc : F.code k = ⟨op, a, b⟩) (ha : F.reg a)
    (hb : elem F.locals b) : F.ins k := by
  rcases h with rfl | rfl <;> (unfold Frame.ins; rw [hc]; dsimp only; exact ⟨ha, hb⟩)
theorem ins_up {F : Frame} {k : Nat} {op a b} (h : op = .getupval ∨ op = .setupval) (hc : F.code k = ⟨op, a, b⟩) (ha : F.reg a)
    (hb : elem F.upvals b) : F.ins k := by
  rcases h with rfl | rfl <;> (unfold Frame.ins; rw [hc]; dsimp only; exact ⟨ha, hb⟩)
theorem ins_proto {F : Frame} {k n : Nat} {a b} (hc : F.code k = ⟨.proto, a, b⟩) (ha : F.reg a)
    (hb : 0 ≤ b ∧ F.protos[b.toNat]? = some n ∧ F.takes k n) : F.ins k := by
  unfold Frame.ins; rw [hc]; dsimp only; exact ⟨ha, n, hb⟩

theorem asm_at (st : CSt) (op : Op) (a b : Int) : (st.asm op a b).code st.len = ⟨op, trunc12 a, trunc12 b⟩ := by simp [CSt.asm]
theorem asm_before (st : CSt) (op : Op) (a b : Int) {k : Nat} (h : k < st.len) : (st.asm op a b).code k = st.code k := by
  simp only [CSt.asm]; rw [if_neg (by omega)]

theorem ext_asm (st : CSt) (op : Op) (a b : Int) : Ext st (st.asm op a b) :=
  ⟨by simp [CSt.asm], fun k hk => by rw [asm_before st op a b hk], Nat.le_refl _, List.prefix_refl _, List.prefix_refl _,
    Nat.le_refl _, List.prefix_refl _, .refl _, id⟩

theorem inv_asm {s M : Nat} {ex} {st : CSt} {op : Op} {a b : Int} (i : Inv s M ex st)
    (h : (st.asm op a b).Fits → ¬ ex st.len → ((st.asm op a b).frame s M).ins st.len) : Inv s M ex (st.asm op a b) := by
  have e := ext_asm st op a b
  refine ⟨fun f k hk hx => ?_, i.link, fun p hp k hk => ?_, i.nest⟩
  · by_cases hk' : k < st.len
    · exact (e.le (Nat.le_refl M)).ins (asm_before st op a b hk') (i.code (e.fits f) k hk' hx)
    · have : k = st.len := by simp only [CSt.asm] at hk; omega
      subst this; exact h f hx
  · obtain ⟨h1, h2⟩ := i.loop p hp k hk
    exact ⟨by simp only [CSt.asm]; omega, by rw [asm_before st op a b h1]; exact h2⟩

theorem step_asm {s N : Nat} {st : CSt} {op : Op} {a b : Int}
    (h : (st.asm op a b).Fits → ∀ M, N ≤ M → ((st.asm op a b).frame s M).ins st.len) : Step s N st (st.asm op a b) :=
  ⟨ext_asm st op a b, fun M hM i => inv_asm i fun f _ => h f M hM⟩

/-- A register that is promised, with the slack. -/
def Ok (s N : Nat) (x : Int) : Prop := 0 ≤ x ∧ x < (N : Int) + s ∧ x < 2048

theorem Ok.reg {s N M : Nat} {st : CSt} {x : Int} (h : Ok s N x) (hM : N ≤ M) : (st.frame s M).reg (trunc12 x) := by
  obtain ⟨h1, h2, h3⟩ := h
  rw [trunc_id (by omega) h3]
  exact ⟨h1, by simp only [CSt.frame]; omega⟩
theorem Ok.trunc {s N : Nat} {x : Int} (h : Ok s N x) : trunc12 x = x := trunc_id (by have := h.1; omega) h.2.2
theorem ok_nat {s N x : Nat} (h : x < N) (h' : x < 2048) : Ok s N x := ⟨by omega, by omega, by omega⟩

section
variable {s N : Nat} {st : CSt} {op : Op} {a b : Int}

theorem step1 (h : one op = true) (ha : st.over = false → Ok s N a) : Step s N st (st.asm op a b) :=
  step_asm fun f M hM => ins_one h (asm_at st op a b) ((ha f.1).reg hM)
theorem step2 (h : two op = true) (hab : st.over = false → Ok s N a ∧ Ok s N b) : Step s N st (st.asm op a b) :=
  step_asm fun f M hM => ins_two h (asm_at st op a b) ((hab f.1).1.reg hM) ((hab f.1).2.reg hM)
theorem step3 (h : three op = true) (hab : st.over = false → Ok s N a ∧ Ok s N (a + 1) ∧ Ok s N b) : Step s N st (st.asm op a b) :=
  step_asm fun f M hM => ins_three h (asm_at st op a b) ((hab f.1).1.reg hM)
    (by rw [(hab f.1).1.trunc, ← (hab f.1).2.1.trunc]; exact (hab f.1).2.1.reg hM) ((hab f.1).2.2.reg hM)

theorem stepK {n : Nat} (ha : st.over = false → Ok s N a) (hn : n < st.values.length) : Step s N st (st.asm .loadk a n) := by
  refine step_asm fun f M hM => ?_
  have h5 : st.values.length ≤ 2048 := f.2.2.2.2.1
  have hc : ((st.asm .loadk a n).frame s M).code st.len = ⟨.loadk, trunc12 a, trunc12 n⟩ := asm_at st .loadk a n
  unfold Frame.ins; rw [hc]
  refine ⟨(ha f.1).reg hM, ?_⟩
  dsimp only
  rw [trunc_id (by omega) (by omega)]
  exact ⟨by omega, by simp only [CSt.frame, CSt.asm]; omega⟩

theorem stepL {n : Nat} (hop : op = .getlocal ∨ op = .setlocal) (ha : st.over = false → Ok s N a) (hn : n < st.locals.length) :
    Step s N st (st.asm op a n) := by
  refine step_asm fun f M hM => ?_
  have h5 : st.locals.length ≤ 2048 := f.2.2.1
  have hc : ((st.asm op a n).frame s M).code st.len = ⟨op, trunc12 a, trunc12 n⟩ := asm_at st op a n
  have hr := (ha f.1).reg (st := st.asm op a n) hM
  have he : elem ((st.asm op a n).frame s M).locals (trunc12 (n : Int)) := by
    rw [trunc_id (by omega) (by omega)]; exact ⟨by omega, by simp only [CSt.frame, CSt.asm]; omega⟩
  exact ins_loc hop hc hr he

theorem stepU {n : Nat} (hop : op = .getupval ∨ op = .setupval) (ha : st.over = false → Ok s N a) (hn : n < st.upvals.length) :
    Step s N st (st.asm op a n) := by
  refine step_asm fun f M hM => ?_
  have h5 : st.upvals.length ≤ 2048 := f.2.2.2.1
  have hc : ((st.asm op a n).frame s M).code st.len = ⟨op, trunc12 a, trunc12 n⟩ := asm_at st op a n
  have hr := (ha f.1).reg (st := st.asm op a n) hM
  have he : elem ((st.asm op a n).frame s M).upvals (trunc12 (n : Int)) := by
    rw [trunc_id (by omega) (by omega)]; exact ⟨by omega, by simp only [CSt.frame, CSt.asm]; omega⟩
  exact ins_up hop hc hr he

theorem stepGet {up : Bool} {n : Nat} (ha : st.over = false → Ok s N a) (hn : Place st up n) : Step s N st (st.asm (getOp up) a n) := by
  cases up
  · exact stepL (.inl rfl) ha hn
  · exact stepU (.inl rfl) ha hn
theorem stepSet {up : Bool} {n : Nat} (ha : st.over = false → Ok s N a) (hn : Place st up n) : Step s N st (st.asm (setOp up) a n) := by
  cases up
  · exact stepL (.inr rfl) ha hn
  · exact stepU (.inr rfl) ha hn

theorem stepCall (h : st.over = false → Ok s N a ∧ a < b ∧ Ok s N b) : Step s N st (st.asm .call a b) := by
  refine step_asm fun f M hM => ?_
  obtain ⟨ha, hab, hb⟩ := h f.1
  have hc : ((st.asm .call a b).frame s M).code st.len = ⟨.call, trunc12 a, trunc12 b⟩ := asm_at ..
  unfold Frame.ins; rw [hc]
  exact ⟨ha.reg hM, by dsimp only; rw [ha.trunc, hb.trunc]; exact hab, hb.reg hM⟩
theorem stepLick (h : st.over = false → Ok s N a ∧ a ≤ b ∧ Ok s N b) : Step s N st (st.asm .newlick a b) := by
  refine step_asm fun f M hM => ?_
  obtain ⟨ha, hab, hb⟩ := h f.1
  have hc : ((st.asm .newlick a b).frame s M).code st.len = ⟨.newlick, trunc12 a, trunc12 b⟩ := asm_at ..
  unfold Frame.ins; rw [hc]
  exact ⟨ha.reg hM, by dsimp only; rw [ha.trunc, hb.trunc]; exact hab, hb.reg hM⟩
theorem stepNamed (h : st.over = false → Ok s N a ∧ Ok s N (b - 1) ∧ Ok s N b) : Step s N st (st.asm .named a b) := by
  refine step_asm fun f M hM => ?_
  obtain ⟨ha, hb', hb⟩ := h f.1
  have hc : ((st.asm .named a b).frame s M).code st.len = ⟨.named, trunc12 a, trunc12 b⟩ := asm_at ..
  unfold Frame.ins; rw [hc]
  exact ⟨ha.reg hM, by dsimp only; rw [hb.trunc, ← hb'.trunc]; exact hb'.reg hM, hb.reg hM⟩
theorem stepTuple (h : st.over = false → Ok s N a ∧ 0 ≤ b ∧ b < 2048 ∧ (1024 ≤ b → Ok s N (b - 1024))) :
    Step s N st (st.asm .gettuple a b) := by
  refine step_asm fun f M hM => ?_
  obtain ⟨ha, hb0, hb1, hb⟩ := h f.1
  have hc : ((st.asm .gettuple a b).frame s M).code st.len = ⟨.gettuple, trunc12 a, trunc12 b⟩ := asm_at ..
  unfold Frame.ins; rw [hc]
  refine ⟨ha.reg hM, ?_⟩
  dsimp only
  rw [trunc_id (by omega) hb1]
  exact ⟨hb0, fun h => by rw [← (hb h).trunc]; exact (hb h).reg hM⟩

/-- A jump to be patched. -/
theorem stepCond (hop : op = .testjmp ∨ op = .notjmp) (ha : st.over = false → Ok s N a) (hb : b = 0 ∨ (b = 1 ∧ 1 ≤ s)) :
    Step s N st (st.asm op a b) := by
  refine step_asm fun f M hM => ?_
  have hc : ((st.asm op a b).frame s M).code st.len = ⟨op, trunc12 a, trunc12 b⟩ := asm_at ..
  have hr := (ha f.1).reg (st := st.asm op a b) hM
  have hp : ((st.asm op a b).frame s M).pos ((st.len : Int) + 1 + trunc12 b) := by
    rw [trunc_id (by omega) (by omega)]; exact ⟨by omega, by simp only [CSt.frame, CSt.asm]; omega⟩
  unfold Frame.ins; rw [hc]
  rcases hop with rfl | rfl <;> exact ⟨hr, hp⟩
theorem stepJmp {t : Nat} (ht : t ≤ st.len + 1) (ha : a = (t : Int) - st.len - 1) : Step s N st (st.asm .jmp a b) := by
  refine step_asm fun f M hM => ?_
  have h2 : st.len + 1 ≤ 2047 := f.2.1
  have hc : ((st.asm .jmp a b).frame s M).code st.len = ⟨.jmp, trunc12 a, trunc12 b⟩ := asm_at ..
  unfold Frame.ins; rw [hc]
  dsimp only
  rw [trunc_id (by omega) (by omega)]
  exact ⟨by omega, by simp only [CSt.frame, CSt.asm]; omega⟩
end

/-! ### Patching -/

theorem patchB_op (st : CSt) (j : Nat) (d : Int) (k : Nat) : ((st.patchB j d).code k).op = (st.code k).op := by
  simp only [CSt.patchB]; split
  · rename_i h; rw [h]
  · rfl
theorem patchA_op (st : CSt) (j : Nat) (d : Int) (k : Nat) : ((st.patchA j d).code k).op = (st.code k).op := by
  simp only [CSt.patchA]; split
  · rename_i h; rw [h]
  · rfl
theorem ext_patchB (st : CSt) (j : Nat) (d : Int) : Ext st (st.patchB j d) :=
  ⟨Nat.le_refl _, fun k _ => patchB_op st j d k, Nat.le_refl _, List.prefix_refl _, List.prefix_refl _, Nat.le_refl _,
    List.prefix_refl _, .refl _, id⟩
theorem ext_patchA (st : CSt) (j : Nat) (d : Int) : Ext st (st.patchA j d) :=
  ⟨Nat.le_refl _, fun k _ => patchA_op st j d k, Nat.le_refl _, List.prefix_refl _, List.prefix_refl _, Nat.le_refl _,
    List.prefix_refl _, .refl _, id⟩

/-- A conditional jump gets its target. -/
theorem step_patchB {s N : Nat} {st : CSt} {j t : Nat} {d : Int} (hj : j < st.len)
    (hop : (st.code j).op = .testjmp ∨ (st.code j).op = .notjmp) (ht : t ≤ st.len) (hd : d = (t : Int) - j - 1) :
    Step s N st (st.patchB j d) := by
  have e := ext_patchB st j d
  refine ⟨e, fun M _ i => ⟨fun f k hk hx => ?_, i.link, fun p hp k hk => ?_, i.nest⟩⟩
  · by_cases hkj : k = j
    · subst hkj
      have h2 : st.len ≤ 2047 := f.2.1
      have hi := i.code (e.fits f) k hk hx
      have hc : ((st.patchB k d).frame s M).code k = { st.code k with b := trunc12 d } := by simp [CSt.frame, CSt.patchB]
      have hp : ((st.patchB k d).frame s M).pos ((k : Int) + 1 + trunc12 d) := by
        rw [trunc_id (by omega) (by omega)]; exact ⟨by omega, by simp only [CSt.frame, CSt.patchB]; omega⟩
      have hr : ∀ x, (st.frame s M).reg x → ((st.patchB k d).frame s M).reg x := fun x hx => hx
      unfold Frame.ins at hi ⊢
      rw [hc]
      have hc' : (st.frame s M).code k = st.code k := rfl
      rw [hc'] at hi
      revert hi
      generalize st.code k = ins at *
      obtain ⟨op, a, b⟩ := ins
      dsimp only at *
      rcases hop with rfl | rfl <;> exact fun hi => ⟨hr _ hi.1, hp⟩
    · have hc : (st.patchB j d).code k = st.code k := by simp only [CSt.patchB]; rw [if_neg hkj]
      exact (e.le (Nat.le_refl M)).ins hc (i.code (e.fits f) k hk hx)
  · obtain ⟨h1, h2⟩ := i.loop p hp k hk
    exact ⟨h1, by rw [patchB_op]; exact h2⟩

/-- A jump gets its target. -/
theorem step_patchA {s N : Nat} {st : CSt} {j t : Nat} {d : Int} (hj : j < st.len)
    (hop : (st.code j).op = .jmp) (ht : t ≤ st.len) (hd : d = (t : Int) - j - 1) : Step s N st (st.patchA j d) := by
  have e := ext_patchA st j d
  refine ⟨e, fun M _ i => ⟨fun f k hk hx => ?_, i.link, fun p hp k hk => ?_, i.nest⟩⟩
  · by_cases hkj : k = j
    · subst hkj
      have h2 : st.len ≤ 2047 := f.2.1
      have hc : ((st.patchA k d).frame s M).code k = { st.code k with a := trunc12 d } := by simp [CSt.frame, CSt.patchA]
      have hp : ((st.patchA k d).frame s M).pos ((k : Int) + 1 + trunc12 d) := by
        rw [trunc_id (by omega) (by omega)]; exact ⟨by omega, by simp only [CSt.frame, CSt.patchA]; omega⟩
      unfold Frame.ins
      rw [hc, hop]
      exact hp
    · have hc : (st.patchA j d).code k = st.code k := by simp only [CSt.patchA]; rw [if_neg hkj]
      exact (e.le (Nat.le_refl M)).ins hc (i.code (e.fits f) k hk hx)
  · obtain ⟨h1, h2⟩ := i.loop p hp k hk
    exact ⟨h1, by rw [patchA_op]; exact h2⟩

theorem patchAll_same (t : Int) : ∀ (l : List Nat) (st : CSt), (st.patchAll t l).len = st.len ∧ (st.patchAll t l).loop = st.loop ∧
    (st.patchAll t l).stack = st.stack ∧ ∀ k, ((st.patchAll t l).code k).op = (st.code k).op
  | [], st => ⟨rfl, rfl, rfl, fun _ => rfl⟩
  | j :: l, st => by
    obtain ⟨h1, h2, h3, h4⟩ := patchAll_same t l (st.patchA j (t - j - 1))
    exact ⟨h1, h2, h3, fun k => (h4 k).trans (patchA_op ..)⟩

theorem step_patchAll {s N : Nat} {t : Nat} : ∀ (l : List Nat) (st : CSt), (∀ k ∈ l, k < st.len ∧ (st.code k).op = .jmp) → t ≤ st.len →
    Step s N st (st.patchAll t l)
  | [], st, _, _ => .refl ..
  | j :: l, st, h, ht => by
    obtain ⟨h1, h2⟩ := h j (by simp)
    have := step_patchA (s := s) (N := N) h1 h2 ht rfl
    exact this.trans (step_patchAll l _ (fun k hk => ⟨(h k (by simp [hk])).1, by rw [patchA_op]; exact (h k (by simp [hk])).2⟩) ht)

/-! ### Functions -/

theorem ext_captures (reg : Nat) : ∀ (xs : List Tree) (st : CSt), Ext st (st.captures reg xs)
  | [], st => .refl st
  | x :: xs, st => by
    simp only [CSt.captures]
    split
    · exact (ext_asm ..).trans (ext_captures reg xs _)
    · split
      · exact (ext_asm ..).trans (ext_captures reg xs _)
      · exact (ext_asm ..).trans (ext_captures reg xs _)

/-- The instructions after PROTO. -/
theorem captures_takes (reg : Nat) : ∀ (xs : List Tree) (st : CSt), ∀ j < xs.length, st.len + j < (st.captures reg xs).len ∧
    (((st.captures reg xs).code (st.len + j)).op = .getupval ∨ ((st.captures reg xs).code (st.len + j)).op = .getlocal)
  | [], st, j, h => by simp at h
  | x :: xs, st, j, h => by
    have key : ∀ op (b : Int), op = .getupval ∨ op = .getlocal → st.len + j < ((st.asm op reg b).captures reg xs).len ∧
        ((((st.asm op reg b).captures reg xs).code (st.len + j)).op = .getupval ∨
          (((st.asm op reg b).captures reg xs).code (st.len + j)).op = .getlocal) := by
      intro op b hop
      have e := ext_captures reg xs (st.asm op reg b)
      have hl : (st.asm op reg b).len = st.len + 1 := rfl
      cases j with
      | zero =>
        have := e.len
        refine ⟨by omega, ?_⟩
        rw [Nat.add_zero, e.op st.len (by omega), asm_at]; exact hop
      | succ j =>
        have := captures_takes reg xs (st.asm op reg b) j (by simp at h; omega)
        rw [hl, Nat.add_right_comm] at this
        exact this
    simp only [CSt.captures]
    split
    · exact key _ _ (.inl rfl)
    · split
      · exact key _ _ (.inr rfl)
      · exact key _ _ (.inr rfl)

theorem inv_captures {s N M reg : Nat} (hM : N ≤ M) (hr : Ok s N reg) {ex} : ∀ (xs : List Tree) (st : CSt), Inv s M ex st →
    (∀ x ∈ xs, Has st.upvals x ∨ Has st.locals x) → Inv s M ex (st.captures reg xs)
  | [], st, i, _ => i
  | x :: xs, st, i, h => by
    simp only [CSt.captures]
    split
    · rename_i n hn
      refine inv_captures hM hr xs _ (inv_asm i fun f _ => ?_) fun y hy => h y (by simp [hy])
      have := find_lt hn
      have h5 : st.upvals.length ≤ 2048 := f.2.2.2.1
      have hc : ((st.asm .getupval reg n).frame s M).code st.len = ⟨.getupval, trunc12 reg, trunc12 n⟩ := asm_at ..
      refine ins_up (.inl rfl) hc (hr.reg hM) ?_
      rw [trunc_id (by omega) (by omega)]
      exact ⟨by omega, by simp only [CSt.frame, CSt.asm]; omega⟩
    · rename_i hu
      rcases h x (by simp) with ⟨n, hn⟩ | ⟨n, hn⟩
      · rw [hn] at hu; contradiction
      · rw [hn]
        refine inv_captures hM hr xs _ (inv_asm i fun f _ => ?_) fun y hy => h y (by simp [hy])
        have := find_lt hn
        have h5 : st.locals.length ≤ 2048 := f.2.2.1
        have hc : ((st.asm .getlocal reg n).frame s M).code st.len = ⟨.getlocal, trunc12 reg, trunc12 n⟩ := asm_at ..
        refine ins_loc (.inl rfl) hc (hr.reg hM) ?_
        rw [trunc_id (by omega) (by omega)]
        exact ⟨by omega, by simp only [CSt.frame, CSt.asm]; omega⟩

theorem ext_addProto (st : CSt) (g : Fn) : Ext st { st with protos := st.protos ++ [g] } :=
  ⟨Nat.le_refl _, fun _ _ => rfl, Nat.le_refl _, List.prefix_refl _, List.prefix_refl _, Nat.le_refl _, prefix_append _ _, .refl _, id⟩

theorem ext_proto (st : CSt) (g : Fn) (reg : Nat) : Ext st (st.proto g reg) :=
  (ext_addProto st g).trans ((ext_asm ..).trans (ext_captures ..))

/-- A closure is made. -/
theorem inv_proto {s N M reg : Nat} {st : CSt} {g : Fn} (hM : N ≤ M) (hr : Ok s N reg) (hg : Neat s g)
    (hu : ∀ x ∈ g.upvals, Has st.upvals x ∨ Has st.locals x) (i : Inv s M no st) : Inv s M no (st.proto g reg) := by
  let st0 : CSt := { st with protos := st.protos ++ [g] }
  have e0 := ext_addProto st g
  have i0 : Inv s M no st0 := ⟨fun f k hk hx => (e0.le (Nat.le_refl M)).ins rfl (i.code (e0.fits f) k hk hx), i.link, i.loop,
    fun h hh => by rcases List.mem_append.1 hh with hh | hh
                   · exact i.nest h hh
                   · rw [List.mem_singleton.1 hh]; exact hg⟩
  have i1 : Inv s M (· = st.len) (st0.asm .proto reg st.protos.length) := by
    refine inv_asm ⟨fun f k hk _ => i0.code f k hk id, i0.link, i0.loop, i0.nest⟩ fun _ h => (h rfl).elim
  have i2 : Inv s M (· = st.len) (st.proto g reg) := inv_captures hM hr g.upvals _ i1 hu
  refine ⟨fun f k hk _ => ?_, i2.link, i2.loop, i2.nest⟩
  by_cases hkl : k = st.len
  · subst hkl
    have e2 := ext_captures reg g.upvals (st0.asm .proto reg st.protos.length)
    have hlen : (st0.asm .proto reg st.protos.length).len = st.len + 1 := rfl
    have f1 := e2.fits f
    have h6 : st.protos.length + 1 ≤ 2048 := by have := f1.2.2.2.2.2; simpa [st0, CSt.asm] using this
    have ht := captures_takes reg g.upvals (st0.asm .proto reg st.protos.length)
    rw [hlen] at ht
    -- the instruction itself is kept
    have hcode : ∀ (xs : List Tree) (st : CSt) (k : Nat), k < st.len → (st.captures reg xs).code k = st.code k := by
      intro xs
      induction xs with
      | nil => intros; rfl
      | cons x xs ih =>
        intro st k hk
        simp only [CSt.captures]
        split
        · rw [ih _ k (by simp only [CSt.asm]; omega), asm_before _ _ _ _ hk]
        · split
          · rw [ih _ k (by simp only [CSt.asm]; omega), asm_before _ _ _ _ hk]
          · rw [ih _ k (by simp only [CSt.asm]; omega), asm_before _ _ _ _ hk]
    have hc : ((st.proto g reg).frame s M).code st.len = ⟨.proto, trunc12 reg, trunc12 st.protos.length⟩ :=
      (hcode g.upvals _ _ (by rw [hlen]; omega)).trans (asm_at st0 ..)
    have hpr : (st.protos ++ [g]) <+: (st.proto g reg).protos := e2.protos
    refine ins_proto hc (hr.reg hM) (n := g.upvals.length) ?_
    rw [trunc_id (by omega) (by omega)]
    refine ⟨by omega, ?_, fun j hj => ht j hj⟩
    obtain ⟨l, hl⟩ := hpr
    show ((st.proto g reg).protos.map (·.upvals.length))[st.protos.length]? = _
    rw [← hl]
    simp
  · exact i2.code f k hk hkl

end Potion.CompileAll
